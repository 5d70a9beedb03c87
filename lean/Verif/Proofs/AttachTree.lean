import Verif.Spec.Attach

/-! Facts about trees, for C79. -/

namespace Verif.Attach

/-- `EResource` as a relation. -/
inductive In (t : Tree) (r : Nat) : Nat → Prop
  | own {o : Nat} : t.own o = some r → In t r o
  | box {o c k : Nat} : t.own o = none → t.box o = some (c, k) → In t r c → In t r o

theorem Inside.trans {box : Nat → Option (Nat × Nat)} {a b x : Nat} (h1 : Inside box a b) (h2 : Inside box b x) : Inside box a x := by
  induction h2 with
  | refl => exact h1
  | step h _ ih => exact .step h ih

theorem Inside.linear {box : Nat → Option (Nat × Nat)} {a b x : Nat} (h1 : Inside box a x) (h2 : Inside box b x) :
    Inside box a b ∨ Inside box b a := by
  induction h1 with
  | refl => exact .inr h2
  | step h h' ih =>
    cases h2 with
    | refl => exact .inl (.step h h')
    | step g g' => rw [h] at g; injection g with g; injection g with g1 g2; subst g1; exact ih g'

theorem Inside.top {box : Nat → Option (Nat × Nat)} {o x : Nat} (h : Inside box o x) :
    x = o ∨ ∃ a k, box a = some (o, k) ∧ Inside box a x := by
  induction h with
  | refl => exact .inl rfl
  | @step x c k h _ ih =>
    rcases ih with rfl | ⟨a, j, ha, hx⟩
    · exact .inr ⟨x, k, h, .refl⟩
    · exact .inr ⟨a, j, ha, .step h hx⟩

/-- two boxes that differ on one object only -/
theorem Inside.same {b b' : Nat → Option (Nat × Nat)} {o x : Nat} (h : ∀ y, y ≠ o → b' y = b y) (hi : Inside b o x) : Inside b' o x := by
  induction hi with
  | refl => exact .refl
  | @step x c k hx _ ih =>
    by_cases e : x = o
    · subst e; exact .refl
    · exact .step ((h x e).trans hx) ih

theorem Inside.same_iff {b b' : Nat → Option (Nat × Nat)} {o x : Nat} (h : ∀ y, y ≠ o → b' y = b y) : Inside b' o x ↔ Inside b o x :=
  ⟨Inside.same fun y hy => (h y hy).symm, Inside.same h⟩

theorem Inside.other {b b' : Nat → Option (Nat × Nat)} {o e x : Nat} (h : ∀ y, y ≠ o → b' y = b y) (hn : ¬ Inside b o x)
    (hi : Inside b e x) : Inside b' e x := by
  induction hi with
  | refl => exact .refl
  | @step x c k hx _ ih =>
    have e : x ≠ o := fun e => hn (e ▸ .refl)
    exact .step ((h x e).trans hx) (ih fun hc => hn (.step hx hc))

theorem Inside.other_iff {b b' : Nat → Option (Nat × Nat)} {o e x : Nat} (h : ∀ y, y ≠ o → b' y = b y) (hn : ¬ Inside b o x) :
    Inside b' e x ↔ Inside b e x :=
  ⟨Inside.other (fun y hy => (h y hy).symm) (fun hc => hn ((Inside.same_iff h).1 hc)), Inside.other h hn⟩

theorem In.other {t t' : Tree} {o r x : Nat} (hb : ∀ y, y ≠ o → t'.box y = t.box y) (ho : ∀ y, y ≠ o → t'.own y = t.own y)
    (hn : ¬ Inside t.box o x) (hi : In t r x) : In t' r x := by
  induction hi with
  | @own x h =>
    have e : x ≠ o := fun e => hn (e ▸ .refl)
    exact .own ((ho x e).trans h)
  | @box x c k h1 h2 _ ih =>
    have e : x ≠ o := fun e => hn (e ▸ .refl)
    exact .box ((ho x e).trans h1) ((hb x e).trans h2) (ih fun hc => hn (.step h2 hc))

theorem In.other_iff {t t' : Tree} {o r x : Nat} (hb : ∀ y, y ≠ o → t'.box y = t.box y) (ho : ∀ y, y ≠ o → t'.own y = t.own y)
    (hn : ¬ Inside t.box o x) : In t' r x ↔ In t r x :=
  ⟨In.other (fun y hy => (hb y hy).symm) (fun y hy => (ho y hy).symm) (fun hc => hn ((Inside.same_iff hb).1 hc)),
    In.other hb ho hn⟩

theorem In.inside {t : Tree} {o r x : Nat} (sep : ∀ x, t.own x = none ∨ t.box x = none) (h : Inside t.box o x) :
    In t r x ↔ In t r o := by
  induction h with
  | refl => rfl
  | @step x c k hx _ ih =>
    have hown : t.own x = none := (sep x).resolve_right (by simp [hx])
    refine Iff.trans ⟨fun hi => ?_, fun hi => .box hown hx hi⟩ ih
    cases hi with
    | own h => simp [hown] at h
    | box _ h2 h3 => rw [hx] at h2; injection h2 with h2; injection h2 with h2 _; subst h2; exact h3

theorem In.unique {t : Tree} {r r' x : Nat} (h : In t r x) (h' : In t r' x) : r = r' := by
  induction h with
  | own h =>
    cases h' with
    | own g => rw [h] at g; injection g
    | box g _ _ => simp [h] at g
  | box h1 h2 _ ih =>
    cases h' with
    | own g => simp [h1] at g
    | box _ g2 g3 => rw [h2] at g2; injection g2 with g2; injection g2 with g2 _; subst g2; exact ih g3

theorem In.of_own {t : Tree} {r r' x : Nat} (h : t.own x = some r) : In t r' x ↔ r' = r :=
  ⟨fun h' => In.unique h' (.own h), fun e => e ▸ .own h⟩

theorem In.of_none {t : Tree} {r x : Nat} (h : t.own x = none) (h2 : t.box x = none) : ¬ In t r x := by
  intro hi
  cases hi with
  | own g => simp [h] at g
  | box _ g _ => simp [h2] at g

theorem In.of_box {t : Tree} {r x c k : Nat} (h : t.own x = none) (h2 : t.box x = some (c, k)) : In t r x ↔ In t r c := by
  constructor
  · intro hi
    cases hi with
    | own g => simp [h] at g
    | box _ g g' => rw [h2] at g; injection g with g; injection g with g _; subst g; exact g'
  · exact .box h h2

/-- no containers in a circle -/
def Ranked (box : Nat → Option (Nat × Nat)) : Prop :=
  ∃ (f : Nat → Nat) (B : Nat), (∀ x, f x ≤ B) ∧ ∀ x c k, box x = some (c, k) → f c < f x

theorem Ranked.acyclic {box : Nat → Option (Nat × Nat)} (h : Ranked box) {x c k : Nat} (hx : box x = some (c, k)) :
    ¬ Inside box x c := by
  obtain ⟨f, B, _, hf⟩ := h
  intro hi
  have : ∀ y, Inside box x y → f x ≤ f y := by
    intro y hy
    induction hy with
    | refl => exact Nat.le_refl _
    | step h _ ih => exact Nat.le_trans ih (Nat.le_of_lt (hf _ _ _ h))
  have h1 := this c hi
  have h2 := hf x c k hx
  omega

theorem Ranked.put_none {box : Nat → Option (Nat × Nat)} (h : Ranked box) (o : Nat) : Ranked (put box o none) := by
  obtain ⟨f, B, hB, hf⟩ := h
  refine ⟨f, B, hB, fun x c k hx => ?_⟩
  unfold put at hx
  split at hx
  · simp at hx
  · exact hf x c k hx

theorem Ranked.put_some {box : Nat → Option (Nat × Nat)} (h : Ranked box) {o p k : Nat} (hn : ¬ Inside box o p) :
    Ranked (put box o (some (p, k))) := by
  obtain ⟨f, B, hB, hf⟩ := h
  classical
  refine ⟨fun x => if Inside box o x then f x + f p + 1 else f x, B + B + 1, fun x => ?_, fun x c j hx => ?_⟩
  · have h1 := hB x; have h2 := hB p
    dsimp only
    split <;> omega
  · unfold put at hx
    dsimp only
    split at hx
    · next e =>
      subst e
      injection hx with hx; injection hx with h1 h2; subst h1 h2
      rw [if_neg hn, if_pos .refl]; omega
    · next e =>
      have h1 := hf x c j hx
      by_cases hc : Inside box o c
      · rw [if_pos hc, if_pos (.step hx hc)]; omega
      · by_cases hx' : Inside box o x
        · rw [if_neg hc, if_pos hx']; omega
        · rw [if_neg hc, if_neg hx']; exact h1

theorem eResource_spec {t : Tree} (hr : Ranked t.box) : ∀ (n o : Nat) (res : Option Nat), eResource t n o = some res →
    ∀ r, In t r o ↔ res = some r := by
  intro n
  induction n with
  | zero => intro o res h; simp [eResource] at h
  | succ n ih =>
    intro o res h r
    unfold eResource at h
    split at h
    · next r' hr' =>
      injection h with h; subst h
      rw [In.of_own hr']; constructor
      · rintro rfl; rfl
      · intro h; injection h with h; exact h.symm
    · next ho =>
      split at h
      · next hb => injection h with h; subst h; simp [In.of_none ho hb]
      · next c k hb =>
        split at h
        · next e => subst e; exact absurd .refl (hr.acyclic hb)
        · rw [In.of_box ho hb]; exact ih c res h r

/-- `EResource` gives an answer. -/
theorem eResource_ends {t : Tree} (hr : Ranked t.box) (o : Nat) : ∃ n res, eResource t n o = some res := by
  obtain ⟨f, B, _, hf⟩ := hr
  suffices ∀ m o, f o ≤ m → ∃ res, eResource t (m + 1) o = some res from ⟨_, this (f o) o (Nat.le_refl _)⟩
  intro m
  induction m with
  | zero =>
    intro o ho
    unfold eResource
    cases hown : t.own o with
    | some r => exact ⟨_, rfl⟩
    | none =>
      cases hb : t.box o with
      | none => exact ⟨_, rfl⟩
      | some b => have := hf o b.1 b.2 hb; omega
  | succ m ih =>
    intro o ho
    unfold eResource
    cases hown : t.own o with
    | some r => exact ⟨_, rfl⟩
    | none =>
      cases hb : t.box o with
      | none => exact ⟨_, rfl⟩
      | some b =>
        have := hf o b.1 b.2 hb
        dsimp only
        split
        · exact ⟨_, rfl⟩
        · exact ih b.1 (by omega)

/-! ### The walk of the contents -/

theorem walks_spec {f : Nat → Option (List Nat)} {os l : List Nat} (h : walks f os = some l) :
    l = os.flatMap (fun a => (f a).getD []) ∧ ∀ a ∈ os, ∃ la, f a = some la := by
  induction os generalizing l with
  | nil => simp [walks] at h; simp [h]
  | cons o os ih =>
    unfold walks at h
    split at h
    · next l1 l2 h1 h2 =>
      injection h with h; subst h
      obtain ⟨ih1, ih2⟩ := ih h2
      subst ih1
      simp [h1]
      exact ih2
    · simp at h

theorem below_congr {M : List Ref} {t t' : Tree} (h : t'.kids = t.kids) : ∀ n o, below M t' n o = below M t n o := by
  intro n
  induction n with
  | zero => intro o; rfl
  | succ n ih =>
    intro o
    have : below M t' n = below M t n := funext ih
    simp [below, contents, this, h]

theorem below_spec {M : List Ref} {t : Tree} (hr : Ranked t.box) (hd : ∀ o k, (t.kids o k).Nodup)
    (hlt : ∀ x c k, t.box x = some (c, k) → k < M.length) : ∀ (n o : Nat) (l : List Nat), below M t n o = some l →
    (∀ y, Inside t.box o y → ∀ k x, x ∈ t.kids y k ↔ t.box x = some (y, k)) →
    (∀ x, x ∈ l ↔ Inside t.box o x) ∧ l.Nodup := by
  intro n
  induction n with
  | zero => intro o l h; simp [below] at h
  | succ n ih =>
    intro o l h hk
    unfold below at h
    cases hw : walks (below M t n) (contents M t o) with
    | none => simp [hw] at h
    | some l' =>
      simp [hw] at h
      subst h
      obtain ⟨hl, hall⟩ := walks_spec hw
      have hmem : ∀ a, a ∈ contents M t o ↔ ∃ k, t.box a = some (o, k) := by
        intro a
        simp only [contents, List.mem_flatMap, List.mem_range]
        constructor
        · rintro ⟨k, _, ha⟩; exact ⟨k, (hk o .refl k a).1 ha⟩
        · rintro ⟨k, ha⟩; exact ⟨k, hlt a o k ha, (hk o .refl k a).2 ha⟩
      have hih : ∀ a la, a ∈ contents M t o → below M t n a = some la → (∀ x, x ∈ la ↔ Inside t.box a x) ∧ la.Nodup := by
        intro a la ha hla
        obtain ⟨k, hbox⟩ := (hmem a).1 ha
        exact ih a la hla fun y hy => hk y (Inside.trans (.step hbox .refl) hy)
      have hx : ∀ x, x ∈ l' ↔ ∃ a k, t.box a = some (o, k) ∧ Inside t.box a x := by
        intro x
        rw [hl]; simp only [List.mem_flatMap]
        constructor
        · rintro ⟨a, ha, hx⟩
          obtain ⟨la, hla⟩ := hall a ha
          rw [hla] at hx
          obtain ⟨k, hk⟩ := (hmem a).1 ha
          exact ⟨a, k, hk, ((hih a la ha hla).1 x).1 hx⟩
        · rintro ⟨a, k, hbox, hx⟩
          have ha := (hmem a).2 ⟨k, hbox⟩
          obtain ⟨la, hla⟩ := hall a ha
          exact ⟨a, ha, by rw [hla]; exact ((hih a la ha hla).1 x).2 hx⟩
      refine ⟨fun x => ?_, ?_⟩
      · simp only [List.mem_cons, hx]
        constructor
        · rintro (rfl | ⟨a, k, ha, hi⟩)
          · exact .refl
          · exact Inside.trans (.step ha .refl) hi
        · intro hi; exact hi.top
      · refine List.nodup_cons.2 ⟨fun ho => ?_, ?_⟩
        · obtain ⟨a, k, ha, hi⟩ := (hx o).1 ho
          exact hr.acyclic ha hi
        · have hcn : (contents M t o).Nodup := by
            unfold contents
            refine List.pairwise_flatMap.2 ⟨fun k _ => hd o k, ?_⟩
            refine List.Pairwise.imp_of_mem ?_ (List.nodup_range (n := M.length))
            intro k k' _ _ hne a ha b hb e
            subst e
            have h1 := (hk o .refl k a).1 ha
            have h2 := (hk o .refl k' a).1 hb
            rw [h1] at h2; injection h2 with h2; injection h2 with _ h2; exact hne h2
          rw [hl]
          refine List.pairwise_flatMap.2 ⟨fun a ha => ?_, ?_⟩
          · obtain ⟨la, hla⟩ := hall a ha
            rw [hla]; exact (hih a la ha hla).2
          · refine List.Pairwise.imp_of_mem ?_ hcn
            intro a b ha hb hne x hxa y hyb e
            subst e
            obtain ⟨la, hla⟩ := hall a ha
            obtain ⟨lb, hlb⟩ := hall b hb
            rw [hla] at hxa; rw [hlb] at hyb
            have i1 := ((hih a la ha hla).1 x).1 hxa
            have i2 := ((hih b lb hb hlb).1 x).1 hyb
            obtain ⟨k1, b1⟩ := (hmem a).1 ha
            obtain ⟨k2, b2⟩ := (hmem b).1 hb
            rcases Inside.linear i1 i2 with i | i
            · cases i with
              | refl => exact hne rfl
              | step g g' => rw [b2] at g; injection g with g; injection g with g _; subst g; exact hr.acyclic b1 g'
            · cases i with
              | refl => exact hne rfl
              | step g g' => rw [b1] at g; injection g with g; injection g with g _; subst g; exact hr.acyclic b2 g'

end Verif.Attach
