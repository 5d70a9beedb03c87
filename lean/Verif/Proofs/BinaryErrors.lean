import Verif.Spec.BinaryErrors

/-!
# Binary documents that are damaged: proofs
-/

namespace Verif.BinaryErrors

open Binary

variable {D : Type} {α β : Type}

theorem bind_eq (p : Parser D α) (f : α → Parser D β) (ts : List (Tok D)) : (p >>= f) ts =
    match p ts with
    | .ok (a, ts) => f a ts
    | .error => .error
    | .panic => .panic
    | .hang => .hang := rfl

/-! ### What is read decides -/

/-- The result depends on the items that are read only, and any damage of one of them is an error. -/
def Det (p : Parser D α) : Prop :=
  ∀ ts v rest, p ts = .ok (v, rest) → ∃ used, ts = used ++ rest ∧ (∀ rest', p (used ++ rest') = .ok (v, rest')) ∧
    ∀ a t b, used = a ++ t :: b → ∀ x, Damaged t x → p (a ++ x) = .error

theorem Det.pure (v : α) : Det (D := D) (Pure.pure v) := by
  intro ts w rest h
  have : (w, rest) = (v, ts) := by
    have h' : (Res.ok (v, ts) : Res (α × List (Tok D))) = .ok (w, rest) := h
    injection h' with h'; exact h'.symm
  injection this with h1 h2
  subst h1 h2
  exact ⟨[], rfl, fun _ => rfl, by intro a t b h; simp at h⟩

theorem Det.fail : Det (fail : Parser D α) := by intro ts w rest h; simp [BinaryErrors.fail] at h
theorem Det.crash : Det (crash : Parser D α) := by intro ts w rest h; simp [BinaryErrors.crash] at h
theorem Det.stuck : Det (stuck : Parser D α) := by intro ts w rest h; simp [BinaryErrors.stuck] at h

theorem Det.bind {p : Parser D α} {f : α → Parser D β} (hp : Det p) (hf : ∀ v, Det (f v)) : Det (p >>= f) := by
  intro ts w rest h
  rw [bind_eq] at h
  cases hr : p ts with
  | ok vr =>
    obtain ⟨v, mid⟩ := vr
    rw [hr] at h
    simp only at h
    obtain ⟨u1, e1, g1, k1⟩ := hp ts v mid hr
    obtain ⟨u2, e2, g2, k2⟩ := hf v mid w rest h
    refine ⟨u1 ++ u2, by rw [e1, e2, List.append_assoc], ?_, ?_⟩
    · intro rest'
      rw [bind_eq, List.append_assoc, g1]
      exact g2 rest'
    · intro a t b hu x hx
      rw [bind_eq]
      rcases List.append_eq_append_iff.1 hu with ⟨c, hc1, hc2⟩ | ⟨c, hc1, hc2⟩
      · -- a = u1 ++ c, u2 = c ++ t :: b
        rw [hc1, List.append_assoc, g1]
        exact k2 c t b hc2 x hx
      · -- u1 = a ++ c, t :: b = c ++ u2
        cases c with
        | nil =>
          simp only [List.append_nil, List.nil_append] at hc1 hc2
          have := g1 x
          rw [hc1] at this
          rw [this]
          have := k2 [] t b hc2.symm x hx
          simpa using this
        | cons t' c =>
          simp only [List.cons_append, List.cons.injEq] at hc2
          rw [k1 a t' c hc1 x (hc2.1 ▸ hx)]
  | error => rw [hr] at h; simp at h
  | panic => rw [hr] at h; simp at h
  | hang => rw [hr] at h; simp at h

/-- reading one item -/
theorem Det.item {p : Parser D α} (h : ∀ ts v rest, p ts = .ok (v, rest) → ∃ t, ts = t :: rest ∧ (∀ rest', p (t :: rest') = .ok (v, rest')) ∧
    ∀ x, Damaged t x → p x = .error) : Det p := by
  intro ts v rest hp
  obtain ⟨t, h1, h2, h3⟩ := h ts v rest hp
  refine ⟨[t], by simpa using h1, by simpa using h2, ?_⟩
  intro a t' b hu x hx
  cases a with
  | nil =>
    simp only [List.nil_append, List.cons.injEq] at hu
    rw [List.nil_append]
    exact h3 x (hu.1 ▸ hx)
  | cons a0 a => simp at hu

theorem Det.int : Det (int : Parser D Int) := by
  refine .item ?_
  intro ts v rest h
  unfold BinaryErrors.int at h
  split at h <;> simp at h
  obtain ⟨rfl, rfl⟩ := h
  refine ⟨_, rfl, fun _ => rfl, ?_⟩
  rintro x (rfl | ⟨t', x', rfl, hc⟩)
  · rfl
  · cases hc <;> rfl

theorem Det.str : Det (str : Parser D String) := by
  refine .item ?_
  intro ts v rest h
  unfold BinaryErrors.str at h
  split at h <;> simp at h
  obtain ⟨rfl, rfl⟩ := h
  refine ⟨_, rfl, fun _ => rfl, ?_⟩
  rintro x (rfl | ⟨t', x', rfl, hc⟩)
  · rfl
  · cases hc; rfl

theorem Det.bytes : Det (bytes : Parser D (List Nat)) := by
  refine .item ?_
  intro ts v rest h
  unfold BinaryErrors.bytes at h
  split at h <;> simp at h
  obtain ⟨rfl, rfl⟩ := h
  refine ⟨_, rfl, fun _ => rfl, ?_⟩
  rintro x (rfl | ⟨t', x', rfl, hc⟩)
  · rfl
  · cases hc; rfl

theorem Det.anyID : Det (anyID : Parser D Nat) := by
  refine .item ?_
  intro ts v rest h
  unfold BinaryErrors.anyID at h
  split at h <;> simp at h
  obtain ⟨rfl, rfl⟩ := h
  refine ⟨_, rfl, fun _ => rfl, ?_⟩
  rintro x (rfl | ⟨t', x', rfl, hc⟩)
  · rfl
  · cases hc

theorem Det.value (t : Basic) : Det (value t : Parser D D) := by
  refine .item ?_
  intro ts v rest h
  unfold BinaryErrors.value at h
  split at h
  · split at h
    · rename_i ht
      simp only [Res.ok.injEq, Prod.mk.injEq] at h
      obtain ⟨rfl, rfl⟩ := h
      refine ⟨_, rfl, fun _ => by simp [BinaryErrors.value, ht], ?_⟩
      rintro x (rfl | ⟨t', x', rfl, hc⟩)
      · rfl
      · cases hc
    · simp at h
  · simp at h

theorem Det.ite {c : Prop} [Decidable c] {p q : Parser D α} (hp : Det p) (hq : Det q) : Det (if c then p else q) := by
  split
  · exact hp
  · exact hq

theorem Det.index {β : Type} (l : List β) (i : Int) : Det (index l i : Parser D β) := by
  unfold BinaryErrors.index
  refine .ite .crash ?_
  split
  · exact .pure _
  · exact .crash

theorem Det.make (lim : Limits) (size : Int) : Det (make lim size : Parser D Nat) := .ite .crash (.pure _)

variable (env : Env D) (lim : Limits)

theorem Det.readURI (d : Dec D) : Det (readURI env d) := by
  unfold BinaryErrors.readURI
  refine .bind .int fun id => .ite (.pure _) (.ite (.bind .str fun s => .bind .str fun f => .pure _) (.bind (.index _ _) fun p => .bind .str fun f => .pure _))

theorem Det.readPackage (d : Dec D) : Det (readPackage env d) := by
  unfold BinaryErrors.readPackage
  refine .bind .int fun id => .ite (.bind .str fun ns => .bind (.readURI env d) fun r => ?_) (.bind (.index _ _) fun p => .pure _)
  obtain ⟨u, d⟩ := r
  simp only
  split
  · exact .fail
  · exact .pure _

theorem Det.readClass (d : Dec D) : Det (readClass env d) := by
  unfold BinaryErrors.readClass
  refine .bind (.readPackage env d) fun r => ?_
  obtain ⟨⟨q, p⟩, d⟩ := r
  refine .bind .int fun id => .ite .crash ?_
  split
  · exact .pure _
  · refine .bind .str fun s => ?_
    split
    · exact .fail
    · exact .pure _

theorem Det.readObjects {dec : Dec D → Parser D (Option Nat × Dec D)} (h : ∀ d, Det (dec d)) (n : Nat) : ∀ d, Det (readObjects dec n d) := by
  induction n with
  | zero => intro d; exact .pure _
  | succ n ih => intro d; exact .bind (h d) fun r => .bind (ih r.2) fun s => .pure _

theorem Det.readStrings (t n : Nat) : Det (readStrings lim t n : Parser D (List String)) := by
  induction n with
  | zero => exact .pure _
  | succ n ih => exact .bind .str fun s => .ite .crash (.bind ih fun l => .pure _)

theorem Det.readValue {dec : Dec D → Parser D (Option Nat × Dec D)} (h : ∀ d, Det (dec d)) (d : Dec D) (o i : Nat) (f : Feature) (list : Bool) :
    Det (readValue env lim dec d o i f list) := by
  unfold BinaryErrors.readValue
  split
  iterate 6 exact .bind (h d) fun r => .pure _
  iterate 4 exact .ite (.bind .int fun s => .bind (.make lim s) fun n => .bind (.readObjects h n d) fun r => .pure _) .crash
  · exact .bind .str fun s => .ite (.pure _) .crash
  · exact .bind .int fun s => .bind (.readStrings lim _ _) fun l => .pure _
  · exact .bind .int fun id => .ite (.bind .str fun s => .ite (.pure _) .crash) (.bind (.index _ _) fun s => .ite (.pure _) .crash)
  · exact .bind (.value _) fun v => .pure _

theorem Det.readFeature (d : Dec D) (q k c i : Nat) : Det (readFeature env d q k c i) := by
  unfold BinaryErrors.readFeature
  split
  · exact .crash
  · split
    · exact .pure _
    · refine .bind .str fun s => ?_
      split
      · exact .fail
      · exact .pure _

theorem Det.readFeatures {dec : Dec D → Parser D (Option Nat × Dec D)} (h : ∀ d, Det (dec d)) (o q k c n : Nat) :
    ∀ id d, Det (readFeatures env lim dec o q k c n id d) := by
  induction n with
  | zero => intro id d; exact .stuck
  | succ n ih =>
    intro id d
    exact .ite (.pure _) (.ite .crash (.bind (.readFeature env d q k c _) fun r => .bind (.readValue env lim h _ _ _ _ _) fun d => .bind .int fun id => ih id d))

theorem Det.readProxy (id : Int) (d : Dec D) : Det (readProxy env id d) :=
  .ite (.bind (.readURI env d) fun r => .bind .int fun id => .pure _) (.pure _)

theorem Det.readID (id : Int) : Det (readID lim id : Parser D (Option Nat × Int)) :=
  .ite (.bind .anyID fun i => .ite (.bind .int fun id => .pure _) .fail) (.pure _)

theorem Det.readObject (n : Nat) : ∀ d, Det (readObject env lim n d) := by
  induction n with
  | zero => intro d; exact .stuck
  | succ n ih =>
    intro d
    exact .bind .int fun id => .ite (.pure _) (.ite (.bind (.readClass env d) fun r => .ite .crash (.bind .int fun id => .bind (.readProxy env id _) fun s =>
      .bind (.readID lim _) fun t => .bind (.readFeatures env lim ih _ _ _ _ _ _ _) fun d => .pure _)) (.ite .crash (.pure _)))

theorem Det.readHeader : Det (readHeader : Parser D Unit) :=
  .bind .bytes fun s => .ite (.bind .int fun v => .ite (.pure _) .fail) .fail

theorem Det.readResource (n : Nat) : Det (readResource env lim n) :=
  .bind .readHeader fun _ => .bind .int fun s => .bind (.make lim s) fun k => .bind (.readObjects (Det.readObject env lim n) k {}) fun r => .pure _

theorem Det.readRoot (n : Nat) : Det (readRoot env lim n) :=
  .bind .readHeader fun _ => .bind (Det.readObject env lim n {}) fun r => .pure _

end Verif.BinaryErrors
