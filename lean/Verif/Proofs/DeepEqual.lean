import Mathlib.Data.List.Forall2
import Verif.Spec.DeepEqual

/-!
# Proofs about structural equality
-/

namespace Verif.DeepEqual

variable {M : Meta} {H : Heap}

theorem equalsAttr_iff (v1 v2 : Option Nat) : equalsAttr v1 v2 = true ↔ v1 = v2 := by
  cases v1 <;> cases v2 <;> simp [equalsAttr]

theorem equalsPrims_iff : ∀ l1 l2 : List (Option Nat), equalsPrims l1 l2 = true ↔ l1 = l2
  | [], [] => by simp [equalsPrims]
  | [], _ :: _ => by simp [equalsPrims]
  | _ :: _, [] => by simp [equalsPrims]
  | x :: xs, y :: ys => by simp [equalsPrims, equalsPrims_iff xs ys]

/-! ### Matches -/

def rel (m : Matched) (a b : Nat) : Prop := m a = some b

structure Inv (m : Matched) : Prop where
  symm : ∀ a b, m a = some b → m b = some a

def Sub (m m' : Matched) : Prop := ∀ a b, m a = some b → m' a = some b

theorem Sub.refl (m : Matched) : Sub m m := fun _ _ h => h

theorem Sub.trans {a b c : Matched} (h1 : Sub a b) (h2 : Sub b c) : Sub a c := fun x y h => h2 x y (h1 x y h)

theorem record_inv {m : Matched} (h : Inv m) {a b : Nat} (ha : m a = none) (hb : m b = none) : Inv (record m a b) := by
  refine ⟨fun x y hx => ?_⟩
  simp only [record] at hx ⊢
  have := h.symm x y
  grind

theorem record_sub {m : Matched} {a b : Nat} (ha : m a = none) (hb : m b = none) : Sub m (record m a b) := by
  intro x y hx
  simp only [record]
  grind

theorem record_new {m : Matched} {a b x y : Nat} (h : record m a b x = some y) : m x = some y ∨ (x = a ∧ y = b) ∨ (x = b ∧ y = a) := by
  simp only [record] at h
  grind

theorem record_fst (m : Matched) (a b : Nat) : record m a b a = some b := by
  simp only [record]; grind

theorem SameFeature.mono {R R' : Nat → Nat → Prop} (h : ∀ x y, R x y → R' x y) {a b f : Nat} (hs : SameFeature M H R a b f) : SameFeature M H R' a b f :=
  ⟨hs.set, hs.attr, hs.attrs, fun hk h1 => h _ _ (hs.ref hk h1), fun hk h1 => (hs.refs hk h1).imp fun _ _ => h _ _⟩

theorem SameFeature.symm {R : Nat → Nat → Prop} (h : ∀ x y, R x y → R y x) {a b f : Nat} (hs : SameFeature M H R a b f) : SameFeature M H R b a f := by
  refine ⟨hs.set.symm, ?_, ?_, ?_, ?_⟩
  · intro hk h1; exact (hs.attr hk (hs.set.trans h1)).symm
  · intro hk h1; exact (hs.attrs hk (hs.set.trans h1)).symm
  · intro hk h1; exact h _ _ (hs.ref hk (hs.set.trans h1))
  · intro hk h1
    exact ((hs.refs hk (hs.set.trans h1)).imp fun x y hxy => h x y hxy).flip

theorem SameContent.mono {fs : Nat → List Nat} {R R' : Nat → Nat → Prop} (h : ∀ x y, R x y → R' x y) {a b : Nat} (hs : SameContent M H fs R a b) : SameContent M H fs R' a b := by
  rcases hs with hs | hs | ⟨h1, h2, h3, h4⟩
  · exact Or.inl hs
  · exact Or.inr (Or.inl hs)
  · exact Or.inr (Or.inr ⟨h1, h2, h3, fun f hf hd => (h4 f hf hd).mono h⟩)

theorem SameContent.symm {fs : Nat → List Nat} {R : Nat → Nat → Prop} (h : ∀ x y, R x y → R y x) {a b : Nat} (hs : SameContent M H fs R a b) : SameContent M H fs R b a := by
  rcases hs with hs | ⟨h1, h2⟩ | ⟨h1, h2, h3, h4⟩
  · exact Or.inl hs.symm
  · exact Or.inr (Or.inl ⟨h2 ▸ h1, h2.symm⟩)
  · exact Or.inr (Or.inr ⟨h2, h1, h3.symm, fun f hf hd => (h4 f (h3 ▸ hf) hd).symm h⟩)

/-! ### A positive answer is right -/

/-- what a comparison that succeeds does to the matches -/
structure Good (M : Meta) (H : Heap) (m m' : Matched) : Prop where
  sub : Sub m m'
  inv : Inv m'
  same : ∀ x y, m' x = some y → m x = none → SameContent M H M.features (rel m') x y

theorem Good.refl {m : Matched} (h : Inv m) : Good M H m m := ⟨Sub.refl m, h, fun x y h1 h2 => by rw [h1] at h2; simp at h2⟩

theorem Good.trans {a b c : Matched} (h1 : Good M H a b) (h2 : Good M H b c) : Good M H a c := by
  refine ⟨h1.sub.trans h2.sub, h2.inv, ?_⟩
  intro x y hx ha
  cases hb : b x with
  | none => exact h2.same x y hx hb
  | some z =>
    have := h2.sub x z hb
    rw [hx] at this
    obtain rfl : y = z := by simpa using this
    exact (h1.same x y hb ha).mono fun p q hpq => h2.sub p q hpq

/-- a loop of comparisons -/
theorem allM_good {α : Type} {f : α → Matched → Option (Bool × Matched)} {P : Matched → α → Prop} (hmono : ∀ m m', Sub m m' → ∀ x, P m x → P m' x) :
    ∀ (l : List α) (m m' : Matched), (∀ x ∈ l, ∀ m m', Inv m → f x m = some (true, m') → Good M H m m' ∧ P m' x) → Inv m → allM f l m = some (true, m') →
      Good M H m m' ∧ ∀ x ∈ l, P m' x := by
  intro l
  induction l with
  | nil =>
    intro m m' _ hi h
    simp only [allM, Option.some.injEq, Prod.mk.injEq, true_and] at h
    subst h
    exact ⟨Good.refl hi, by simp⟩
  | cons x xs ih =>
    intro m m' hf hi h
    simp only [allM] at h
    split at h
    · simp at h
    · simp at h
    · rename_i m1 h1
      obtain ⟨g1, p1⟩ := hf x (by simp) m m1 hi h1
      obtain ⟨g2, p2⟩ := ih m1 m' (fun y hy => hf y (by simp [hy])) g1.inv h
      refine ⟨g1.trans g2, ?_⟩
      intro y hy
      rcases List.mem_cons.mp hy with rfl | hy
      · exact hmono m1 m' g2.sub _ p1
      · exact p2 y hy

theorem equalsList_good {eq : Nat → Nat → Matched → Option (Bool × Matched)}
    (heq : ∀ a b m m', Inv m → eq a b m = some (true, m') → Good M H m m' ∧ m' a = some b) {l1 l2 : List Nat} {m m' : Matched} (hi : Inv m)
    (h : equalsList eq l1 l2 m = some (true, m')) : Good M H m m' ∧ List.Forall₂ (rel m') l1 l2 := by
  simp only [equalsList] at h
  split at h
  · simp at h
  · rename_i hlen
    have hlen : l1.length = l2.length := by simpa using hlen
    obtain ⟨g, p⟩ := allM_good (P := fun m p => m p.1 = some p.2) (fun m m' hs x hx => hs x.1 x.2 hx) (l1.zip l2) m m'
      (fun x _ m m' hi h => heq x.1 x.2 m m' hi h) hi h
    refine ⟨g, List.forall₂_iff_zip.2 ⟨hlen, fun {a b} hab => p (a, b) hab⟩⟩

theorem equalsFeature_good {eq : Nat → Nat → Matched → Option (Bool × Matched)}
    (heq : ∀ a b m m', Inv m → eq a b m = some (true, m') → Good M H m m' ∧ m' a = some b) {a b f : Nat} {m m' : Matched} (hi : Inv m)
    (h : equalsFeature M H eq a b f m = some (true, m')) : Good M H m m' ∧ SameFeature M H (rel m') a b f := by
  simp only [equalsFeature] at h
  split at h
  · rename_i hset
    simp only [Bool.and_eq_true] at hset
    have hs : H.isSet a f = H.isSet b f := hset.1.trans hset.2.symm
    split at h <;> rename_i hk
    · simp only [Option.some.injEq, Prod.mk.injEq] at h
      obtain ⟨h, rfl⟩ := h
      exact ⟨Good.refl hi, hs, fun _ _ => (equalsAttr_iff _ _).1 h, by simp [hk], by simp [hk], by simp [hk]⟩
    · simp only [Option.some.injEq, Prod.mk.injEq] at h
      obtain ⟨h, rfl⟩ := h
      exact ⟨Good.refl hi, hs, by simp [hk], fun _ _ => (equalsPrims_iff _ _).1 h, by simp [hk], by simp [hk]⟩
    · obtain ⟨g, p⟩ := heq _ _ _ _ hi h
      exact ⟨g, hs, by simp [hk], by simp [hk], fun _ _ => p, by simp [hk]⟩
    · obtain ⟨g, p⟩ := equalsList_good heq hi h
      exact ⟨g, hs, by simp [hk], by simp [hk], by simp [hk], fun _ _ => p⟩
  · rename_i hset
    simp only [Option.some.injEq, Prod.mk.injEq, beq_iff_eq] at h
    obtain ⟨h, rfl⟩ := h
    have hn : H.isSet a f ≠ true := by
      intro ha
      rw [ha] at h
      simp [ha, ← h] at hset
    exact ⟨Good.refl hi, h, fun _ h1 => absurd h1 hn, fun _ h1 => absurd h1 hn, fun _ h1 => absurd h1 hn, fun _ h1 => absurd h1 hn⟩

theorem record_good {m : Matched} (hi : Inv m) {a b : Nat} (ha : m a = none) (hb : m b = none)
    (h : SameContent M H M.features (rel (record m a b)) a b) : Good M H m (record m a b) ∧ record m a b a = some b := by
  have hinv := record_inv hi ha hb
  refine ⟨⟨record_sub ha hb, hinv, ?_⟩, record_fst m a b⟩
  intro x y hx hm
  rcases record_new hx with h1 | ⟨rfl, rfl⟩ | ⟨rfl, rfl⟩
  · rw [h1] at hm; simp at hm
  · exact h
  · exact h.symm fun p q hpq => hinv.symm p q hpq

theorem equalsObj_good (n : Nat) : ∀ a b m m', Inv m → equalsObj M H n a b m = some (true, m') → Good M H m m' ∧ m' a = some b := by
  induction n with
  | zero => intro a b m m' _ h; simp [equalsObj] at h
  | succ n ih =>
    intro a b m m' hi h
    simp only [equalsObj] at h
    split at h
    · rename_i a' ha
      simp only [Option.some.injEq, Prod.mk.injEq, beq_iff_eq] at h
      obtain ⟨rfl, rfl⟩ := h
      exact ⟨Good.refl hi, ha⟩
    · rename_i ha
      split at h
      · rename_i b' hb
        simp only [Option.some.injEq, Prod.mk.injEq, beq_iff_eq] at h
        obtain ⟨rfl, rfl⟩ := h
        exact ⟨Good.refl hi, hi.symm _ _ hb⟩
      · rename_i hb
        split at h
        · rename_i hab
          simp only [Option.some.injEq, Prod.mk.injEq, true_and] at h
          subst h
          exact record_good hi ha hb (Or.inl hab)
        · split at h
          · rename_i hua
            split at h
            · rename_i huab
              simp only [Option.some.injEq, Prod.mk.injEq, true_and] at h
              subst h
              exact record_good hi ha hb (Or.inr (Or.inl ⟨hua, huab⟩))
            · simp at h
          · rename_i hua
            split at h
            · simp at h
            · rename_i hub
              split at h
              · simp at h
              · rename_i hcls
                split at h
                · simp at h
                · have hinv := record_inv hi ha hb
                  obtain ⟨g, p⟩ := allM_good (P := fun m f => SameFeature M H (rel m) a b f) (fun m m' hs x hx => hx.mono fun p q hpq => hs p q hpq) _ _ m'
                    (fun f _ m m' hi h => equalsFeature_good ih hi h) hinv h
                  refine ⟨?_, g.sub _ _ (record_fst m a b)⟩
                  have hsame : SameContent M H M.features (rel m') a b := by
                    refine Or.inr (Or.inr ⟨by simpa using hua, by simpa using hub, by simpa using hcls, ?_⟩)
                    intro f hf hd
                    exact p f (List.mem_filter.2 ⟨hf, by simp [hd]⟩)
                  refine ⟨(record_sub ha hb).trans g.sub, g.inv, ?_⟩
                  intro x y hx hm
                  cases hr : record m a b x with
                  | none => exact g.same x y hx hr
                  | some z =>
                    have := g.sub x z hr
                    rw [hx] at this
                    obtain rfl : y = z := by simpa using this
                    rcases record_new hr with h1 | ⟨rfl, rfl⟩ | ⟨rfl, rfl⟩
                    · rw [h1] at hm; simp at hm
                    · exact hsame
                    · exact hsame.symm fun p q hpq => g.inv.symm p q hpq

/-! ### Equal objects are found to be equal -/

variable {R : Nat → Nat → Prop}

def Within (m : Matched) (R : Nat → Nat → Prop) : Prop := ∀ x y, m x = some y → R x y

theorem allM_within {α : Type} {f : α → Matched → Option (Bool × Matched)} : ∀ (l : List α) (m : Matched),
    (∀ x ∈ l, ∀ m, Within m R → ∀ r, f x m = some r → r.1 = true ∧ Within r.2 R) → Within m R → ∀ r, allM f l m = some r → r.1 = true ∧ Within r.2 R := by
  intro l
  induction l with
  | nil =>
    intro m _ hw r h
    simp only [allM, Option.some.injEq] at h
    subst h
    exact ⟨rfl, hw⟩
  | cons x xs ih =>
    intro m hf hw r h
    simp only [allM] at h
    split at h
    · simp at h
    · rename_i m1 h1
      have := (hf x (by simp) m hw _ h1).1
      simp at this
    · rename_i m1 h1
      exact ih m1 (fun y hy => hf y (by simp [hy])) (hf x (by simp) m hw _ h1).2 r h

theorem equalsList_within {eq : Nat → Nat → Matched → Option (Bool × Matched)}
    (heq : ∀ a b, R a b → ∀ m, Within m R → ∀ r, eq a b m = some r → r.1 = true ∧ Within r.2 R) {l1 l2 : List Nat} (hl : List.Forall₂ R l1 l2) {m : Matched}
    (hw : Within m R) {r : Bool × Matched} (h : equalsList eq l1 l2 m = some r) : r.1 = true ∧ Within r.2 R := by
  simp only [equalsList, hl.length_eq, ne_eq, not_true_eq_false, if_false] at h
  exact allM_within _ m (fun p hp m hw r hr => heq p.1 p.2 ((List.forall₂_iff_zip.1 hl).2 hp) m hw r hr) hw r h

theorem equalsFeature_within {eq : Nat → Nat → Matched → Option (Bool × Matched)}
    (heq : ∀ a b, R a b → ∀ m, Within m R → ∀ r, eq a b m = some r → r.1 = true ∧ Within r.2 R) {a b f : Nat} (hs : SameFeature M H R a b f) {m : Matched}
    (hw : Within m R) {r : Bool × Matched} (h : equalsFeature M H eq a b f m = some r) : r.1 = true ∧ Within r.2 R := by
  simp only [equalsFeature, ← hs.set, Bool.and_self] at h
  split at h
  · rename_i hset
    split at h <;> rename_i hk
    · simp only [Option.some.injEq] at h
      subst h
      exact ⟨(equalsAttr_iff _ _).2 (hs.attr hk hset), hw⟩
    · simp only [Option.some.injEq] at h
      subst h
      exact ⟨(equalsPrims_iff _ _).2 (hs.attrs hk hset), hw⟩
    · exact heq _ _ (hs.ref hk hset) m hw r h
    · exact equalsList_within heq (hs.refs hk hset) hw h
  · simp only [Option.some.injEq] at h
    subst h
    exact ⟨by simp, hw⟩

theorem record_within {m : Matched} (hw : Within m R) (hsymm : ∀ a b, R a b → R b a) {a b : Nat} (h : R a b) : Within (record m a b) R := by
  intro x y hx
  rcases record_new hx with h1 | ⟨rfl, rfl⟩ | ⟨rfl, rfl⟩
  · exact hw x y h1
  · exact h
  · exact hsymm _ _ h

theorem equalsObj_within (hR : Pairing M H M.features R) (n : Nat) :
    ∀ a b, R a b → ∀ m, Within m R → ∀ r, equalsObj M H n a b m = some r → r.1 = true ∧ Within r.2 R := by
  induction n with
  | zero => intro a b _ m _ r h; simp [equalsObj] at h
  | succ n ih =>
    intro a b hab m hw r h
    simp only [equalsObj] at h
    split at h
    · rename_i a' ha
      simp only [Option.some.injEq] at h
      subst h
      exact ⟨by simpa using hR.unique a _ _ (hw a a' ha) hab, hw⟩
    · split at h
      · rename_i b' hb
        simp only [Option.some.injEq] at h
        subst h
        exact ⟨by simpa using hR.unique b _ _ (hw b b' hb) (hR.symm a b hab), hw⟩
      · split at h
        · simp only [Option.some.injEq] at h
          subst h
          exact ⟨rfl, record_within hw hR.symm hab⟩
        · rename_i hne
          have hsame := hR.same a b hab
          split at h
          · rename_i hua
            split at h
            · simp only [Option.some.injEq] at h
              subst h
              exact ⟨rfl, record_within hw hR.symm hab⟩
            · rename_i hu
              exfalso
              rcases hsame with h1 | ⟨h1, h2⟩ | ⟨h1, h2, -⟩
              · exact hne h1
              · exact hu h2
              · simp [h1] at hua
          · rename_i hua
            have hua : H.uri a = none := by simpa using hua
            have hthird : H.uri b = none ∧ H.cls a = H.cls b ∧ ∀ f ∈ M.features (H.cls a), M.derived f = false → SameFeature M H R a b f := by
              rcases hsame with h1 | ⟨h1, h2⟩ | ⟨h1, h2⟩
              · exact absurd h1 hne
              · simp [hua] at h1
              · exact h2
            obtain ⟨hub, hcls, hfs⟩ := hthird
            simp only [hub, hcls, Option.isSome_none, Bool.false_eq_true, if_false, ne_eq, not_true_eq_false] at h
            have hall := fun r h => allM_within (R := R) (f := equalsFeature M H (equalsObj M H n) a b)
              ((M.features (H.cls b)).filter fun f => !M.derived f) (record m a b) (fun f hf m hw r hr =>
                equalsFeature_within ih (hfs f (hcls ▸ (List.mem_filter.1 hf).1) (by simpa using (List.mem_filter.1 hf).2)) hw hr)
              (record_within hw hR.symm hab) r h
            split at h
            · rename_i m' h1
              have := (hall _ h1).1
              simp at this
            · exact hall r h

/-! ### Termination -/

/-- how many objects are not matched -/
def free (os : List Nat) (m : Matched) : Nat := (os.filter fun x => (m x).isNone).length

theorem free_le {os : List Nat} {m m' : Matched} (h : Sub m m') : free os m' ≤ free os m := by
  simp only [free]
  refine List.Sublist.length_le (List.monotone_filter_right os ?_)
  intro x hx
  cases hm : m x with
  | none => rfl
  | some y => rw [h x y hm] at hx; simp at hx

theorem free_lt {os : List Nat} {m : Matched} {a b : Nat} (ho : a ∈ os) (ha : m a = none) (hb : m b = none) : free os (record m a b) < free os m := by
  have hle : free os (record m a b) ≤ free os m := free_le (record_sub ha hb)
  refine Nat.lt_of_le_of_ne hle fun heq => ?_
  simp only [free] at heq
  have hsub : (os.filter fun x => (record m a b x).isNone).Sublist (os.filter fun x => (m x).isNone) := by
    refine List.monotone_filter_right os ?_
    intro x hx
    cases hm : m x with
    | none => rfl
    | some y => rw [record_sub ha hb x y hm] at hx; simp at hx
  have := hsub.eq_of_length heq
  have hmem : a ∈ os.filter fun x => (m x).isNone := List.mem_filter.2 ⟨ho, by simp [ha]⟩
  rw [← this] at hmem
  simp [record_fst] at hmem

theorem allM_ends {α : Type} {f : α → Matched → Option (Bool × Matched)} {os : List Nat} {k : Nat} : ∀ (l : List α) (m : Matched),
    (∀ x ∈ l, ∀ m, Inv m → free os m ≤ k → ∃ r, f x m = some r ∧ (r.1 = true → Inv r.2 ∧ free os r.2 ≤ k)) → Inv m → free os m ≤ k →
      ∃ r, allM f l m = some r ∧ (r.1 = true → Inv r.2 ∧ free os r.2 ≤ k) := by
  intro l
  induction l with
  | nil => intro m _ hi hm; exact ⟨(true, m), rfl, fun _ => ⟨hi, hm⟩⟩
  | cons x xs ih =>
    intro m hf hi hm
    obtain ⟨⟨r, m1⟩, h1, h2⟩ := hf x (by simp) m hi hm
    simp only [allM, h1]
    cases r with
    | false => exact ⟨_, rfl, by simp⟩
    | true =>
      obtain ⟨hi1, hm1⟩ := h2 rfl
      exact ih m1 (fun y hy => hf y (by simp [hy])) hi1 hm1

theorem equalsObj_ends {os : List Nat} (hc : Closed H os) (n : Nat) : ∀ a ∈ os, ∀ b ∈ os, ∀ m, Inv m → free os m < n →
    ∃ r, equalsObj M H n a b m = some r := by
  induction n with
  | zero => intro a _ b _ m _ h; omega
  | succ n ih =>
    intro a ha b hb m hi hm
    simp only [equalsObj]
    split
    · exact ⟨_, rfl⟩
    · rename_i hma
      split
      · exact ⟨_, rfl⟩
      · rename_i hmb
        split
        · exact ⟨_, rfl⟩
        · split
          · split <;> exact ⟨_, rfl⟩
          · split
            · exact ⟨_, rfl⟩
            · split
              · exact ⟨_, rfl⟩
              · have hlt := free_lt (b := b) ha hma hmb
                have hk : free os (record m a b) < n := by omega
                have heq : ∀ x ∈ os, ∀ y ∈ os, ∀ m', Inv m' → free os m' ≤ free os (record m a b) →
                    ∃ r, equalsObj M H n x y m' = some r ∧ (r.1 = true → Inv r.2 ∧ free os r.2 ≤ free os (record m a b)) := by
                  intro x hx y hy m' hi hm
                  obtain ⟨⟨r, m''⟩, h1⟩ := ih x hx y hy m' hi (by omega)
                  refine ⟨_, h1, ?_⟩
                  rintro rfl
                  obtain ⟨g, -⟩ := equalsObj_good n x y m' m'' hi h1
                  exact ⟨g.inv, Nat.le_trans (free_le g.sub) hm⟩
                obtain ⟨⟨r, m'⟩, h1, -⟩ := allM_ends (f := equalsFeature M H (equalsObj M H n) a b) (os := os) (k := free os (record m a b))
                  ((M.features (H.cls a)).filter fun f => !M.derived f) (record m a b) (by
                    intro f _ m' hi hm
                    simp only [equalsFeature]
                    split
                    · split
                      · exact ⟨_, rfl, fun _ => ⟨hi, hm⟩⟩
                      · exact ⟨_, rfl, fun _ => ⟨hi, hm⟩⟩
                      · exact heq _ (hc.ref a ha f) _ (hc.ref b hb f) m' hi hm
                      · simp only [equalsList]
                        split
                        · exact ⟨_, rfl, by simp⟩
                        · refine allM_ends _ m' ?_ hi hm
                          intro p hp m'' hi hm
                          have := List.of_mem_zip (a := p.1) (b := p.2) hp
                          exact heq _ (hc.refs a ha f _ this.1) _ (hc.refs b hb f _ this.2) m'' hi hm
                    · exact ⟨_, rfl, fun _ => ⟨hi, hm⟩⟩) (record_inv hi hma hmb) (Nat.le_refl _)
                rw [h1]
                cases r with
                | false => exact ⟨_, rfl⟩
                | true => exact ⟨_, rfl⟩

/-! ### The characterisation -/

theorem inv_empty : Inv fun _ => none := ⟨by simp⟩

theorem equals_some {n : Nat} {a b : Nat} {r : Bool} (h : equals M H n (some a) (some b) = some r) :
    r = true ↔ ∃ R, Pairing M H M.features R ∧ R a b := by
  simp only [equals, Option.map_eq_some_iff] at h
  obtain ⟨⟨r', m'⟩, h, rfl⟩ := h
  constructor
  · rintro rfl
    obtain ⟨g, hab⟩ := equalsObj_good n a b _ m' inv_empty h
    refine ⟨rel m', ⟨fun x y hxy => g.inv.symm x y hxy, ?_, fun x y hxy => g.same x y hxy rfl⟩, hab⟩
    intro x y z h1 h2
    simp only [rel] at h1 h2
    rw [h1] at h2
    simpa using h2
  · rintro ⟨R, hR, hab⟩
    exact (equalsObj_within hR n a b hab _ (fun x y h => by simp at h) _ h).1

theorem equals_ends {os : List Nat} (hc : Closed H os) {a b : Nat} (ha : a ∈ os) (hb : b ∈ os) {n : Nat} (hn : os.length < n) :
    ∃ r, equals M H n (some a) (some b) = some r := by
  obtain ⟨r, hr⟩ := equalsObj_ends (M := M) hc n a ha b hb (fun _ => none) inv_empty (by
    simp only [free]
    exact Nat.lt_of_le_of_lt (List.length_filter_le _ _) hn)
  exact ⟨r.1, by simp [equals, hr]⟩

theorem equalsAll_some {n : Nat} {l1 l2 : List Nat} {r : Bool} (h : equalsAll M H n l1 l2 = some r) :
    r = true ↔ ∃ R, Pairing M H M.features R ∧ List.Forall₂ R l1 l2 := by
  simp only [equalsAll, Option.map_eq_some_iff] at h
  obtain ⟨⟨r', m'⟩, h, rfl⟩ := h
  constructor
  · rintro rfl
    obtain ⟨g, hab⟩ := equalsList_good (fun a b m m' hi h => equalsObj_good n a b m m' hi h) inv_empty h
    refine ⟨rel m', ⟨fun x y hxy => g.inv.symm x y hxy, ?_, fun x y hxy => g.same x y hxy rfl⟩, hab⟩
    intro x y z h1 h2
    simp only [rel] at h1 h2
    rw [h1] at h2
    simpa using h2
  · rintro ⟨R, hR, hab⟩
    exact (equalsList_within (fun a b hab m hw r h => equalsObj_within hR n a b hab m hw r h) hab (fun x y h => by simp at h) h).1

theorem equalsAll_ends {os : List Nat} (hc : Closed H os) {l1 l2 : List Nat} (h1 : ∀ a ∈ l1, a ∈ os) (h2 : ∀ b ∈ l2, b ∈ os) {n : Nat} (hn : os.length < n) :
    ∃ r, equalsAll M H n l1 l2 = some r := by
  have hk : free os (fun _ => none) < n := by
    simp only [free]
    exact Nat.lt_of_le_of_lt (List.length_filter_le _ _) hn
  have : ∃ r, equalsList (equalsObj M H n) l1 l2 (fun _ => none) = some r := by
    simp only [equalsList]
    split
    · exact ⟨_, rfl⟩
    · obtain ⟨r, hr, -⟩ := allM_ends (f := fun p m => equalsObj M H n p.1 p.2 m) (os := os) (k := free os fun _ => none) (l1.zip l2) (fun _ => none) (by
        intro p hp m hi hm
        have hp := List.of_mem_zip (a := p.1) (b := p.2) hp
        obtain ⟨⟨r, m'⟩, hr⟩ := equalsObj_ends (M := M) hc n p.1 (h1 _ hp.1) p.2 (h2 _ hp.2) m hi (by omega)
        refine ⟨_, hr, ?_⟩
        rintro rfl
        obtain ⟨g, -⟩ := equalsObj_good n p.1 p.2 m m' hi hr
        exact ⟨g.inv, Nat.le_trans (free_le g.sub) hm⟩) inv_empty (Nat.le_refl _)
      exact ⟨r, hr⟩
  obtain ⟨r, hr⟩ := this
  exact ⟨r.1, by simp [equalsAll, hr]⟩

/-! ### Consequences -/

theorem pairing_eq : Pairing M H M.features (fun a b => a = b) := ⟨fun _ _ h => h.symm, fun _ _ _ h1 h2 => h1.symm.trans h2, fun _ _ h => Or.inl h⟩

/-- two steps, seen from `a`, `b` and `c` -/
def Comp (M : Meta) (H : Heap) (R1 R2 : Nat → Nat → Prop) (a b c x z : Nat) : Prop :=
  ∃ y, R1 x y ∧ R2 y z ∧ Reach M H a x ∧ Reach M H b y ∧ Reach M H c z

theorem comp_list {R1 R2 : Nat → Nat → Prop} {a b c : Nat} {l1 l2 : List Nat} (h1 : List.Forall₂ R1 l1 l2) : ∀ {l3 : List Nat}, List.Forall₂ R2 l2 l3 →
    (∀ x ∈ l1, Reach M H a x) → (∀ x ∈ l2, Reach M H b x) → (∀ x ∈ l3, Reach M H c x) → List.Forall₂ (Comp M H R1 R2 a b c) l1 l3 := by
  induction h1 with
  | nil => intro l3 h; cases h; intros; exact .nil
  | cons hxy _ ih =>
    intro l3 h
    cases h with
    | cons hyz h =>
      intro ha hb hc
      exact .cons ⟨_, hxy, hyz, ha _ (by simp), hb _ (by simp), hc _ (by simp)⟩
        (ih h (fun x hx => ha x (by simp [hx])) (fun x hx => hb x (by simp [hx])) fun x hx => hc x (by simp [hx]))

theorem comp_pairing {R1 R2 : Nat → Nat → Prop} (h1 : Pairing M H M.features R1) (h2 : Pairing M H M.features R2) {a b c : Nat}
    (hab : ∀ x, Reach M H a x → ¬ Reach M H b x) (hbc : ∀ x, Reach M H b x → ¬ Reach M H c x) (hac : ∀ x, Reach M H a x → ¬ Reach M H c x) :
    Pairing M H M.features fun x z => Comp M H R1 R2 a b c x z ∨ Comp M H R1 R2 a b c z x := by
  have hsame : ∀ x z, Comp M H R1 R2 a b c x z → SameContent M H M.features (Comp M H R1 R2 a b c) x z := by
    rintro x z ⟨y, hxy, hyz, hx, hy, hz⟩
    rcases h1.same x y hxy with rfl | ⟨e1, e2⟩ | ⟨u1, u2, u3, u4⟩
    · exact absurd hy (hab _ hx)
    · rcases h2.same y z hyz with rfl | ⟨e3, e4⟩ | ⟨v1, v2, v3, v4⟩
      · exact absurd hz (hbc _ hy)
      · exact Or.inr (Or.inl ⟨e1, e2.trans e4⟩)
      · rw [e2, v1] at e1; simp at e1
    · rcases h2.same y z hyz with rfl | ⟨e3, e4⟩ | ⟨v1, v2, v3, v4⟩
      · exact absurd hz (hbc _ hy)
      · rw [u2] at e3; simp at e3
      · refine Or.inr (Or.inr ⟨u1, v2, u3.trans v3, ?_⟩)
        intro f hf hd
        have s1 := u4 f hf hd
        have s2 := v4 f (u3 ▸ hf) hd
        refine ⟨s1.set.trans s2.set, ?_, ?_, ?_, ?_⟩
        · intro hk hs; exact (s1.attr hk hs).trans (s2.attr hk (s1.set ▸ hs))
        · intro hk hs; exact (s1.attrs hk hs).trans (s2.attrs hk (s1.set ▸ hs))
        · intro hk hs
          have hs2 := s1.set ▸ hs
          have hs3 := s2.set ▸ hs2
          exact ⟨_, s1.ref hk hs, s2.ref hk hs2, .ref x f hx hf hd hk hs, .ref y f hy (u3 ▸ hf) hd hk hs2, .ref z f hz (v3 ▸ u3 ▸ hf) hd hk hs3⟩
        · intro hk hs
          have hs2 := s1.set ▸ hs
          have hs3 := s2.set ▸ hs2
          exact comp_list (s1.refs hk hs) (s2.refs hk hs2) (fun w hw => .refs x f w hx hf hd hk hs hw) (fun w hw => .refs y f w hy (u3 ▸ hf) hd hk hs2 hw)
            fun w hw => .refs z f w hz (v3 ▸ u3 ▸ hf) hd hk hs3 hw
  refine ⟨fun x z h => h.symm, ?_, ?_⟩
  · rintro x z z' (⟨y, hxy, hyz, hx, hy, hz⟩ | ⟨y, hxy, hyz, hx, hy, hz⟩) (⟨y', hxy', hyz', hx', hy', hz'⟩ | ⟨y', hxy', hyz', hx', hy', hz'⟩)
    · obtain rfl := h1.unique x _ _ hxy hxy'
      exact h2.unique _ _ _ hyz hyz'
    · exact absurd hz' (hac _ hx)
    · exact absurd hz (hac _ hx')
    · obtain rfl := h2.unique x _ _ (h2.symm _ _ hyz) (h2.symm _ _ hyz')
      exact h1.unique _ _ _ (h1.symm _ _ hxy) (h1.symm _ _ hxy')
  · rintro x z (h | h)
    · exact (hsame x z h).mono fun _ _ h => Or.inl h
    · exact ((hsame z x h).mono (R' := fun x z => Comp M H R1 R2 a b c x z ∨ Comp M H R1 R2 a b c z x) fun _ _ h => Or.inl h).symm fun _ _ h => h.symm

end Verif.DeepEqual
