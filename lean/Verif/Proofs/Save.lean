import Verif.Model.Save

/-!
# Proofs about saving and loading
-/

namespace Verif.Save

theorem values_good {r : Root} (h : Item.unwritable ∉ r) : ∀ acc t, parse (some acc) (values r ++ t) = parse (some (acc ++ r)) t := by
  induction r with
  | nil => intro acc t; simp [values]
  | cons x r ih =>
    intro acc t
    simp only [List.mem_cons, not_or] at h
    cases x with
    | value n =>
      have := ih h.2 (acc ++ [.value n]) t
      simp only [values, List.filterMap_cons, List.cons_append, parse] at *
      rw [this]; simp
    | unwritable => simp at h

theorem parse_root {r : Root} (h : Item.unwritable ∉ r) (t : Doc) : parse none (.open :: values r ++ .close :: t) = (parse none t).map (r :: ·) := by
  simp only [List.cons_append, parse]
  rw [values_good h]
  simp [parse]

theorem until_good {r : Root} : (until_ r).2 = true → Item.unwritable ∉ r ∧ (until_ r).1 = values r := by
  induction r with
  | nil => simp [until_, values]
  | cons x r ih =>
    cases x with
    | value n => intro h; have := ih h; simp [until_, this, values]
    | unwritable => simp [until_]

theorem upTo_good (rs : List Root) : (upTo rs).2 = true → parse none (upTo rs).1 = some rs := by
  induction rs with
  | nil => simp [upTo, parse]
  | cons r rs ih =>
    intro h
    simp only [upTo] at h ⊢
    split at h
    · rename_i hok
      rw [if_pos hok]
      simp only at h ⊢
      obtain ⟨h1, h2⟩ := until_good hok
      rw [h2, parse_root h1, ih h]
      rfl
    · simp at h

/-- an encoder that reports no error has written a document which is read as what was written -/
theorem encode_decode {c : Codec} {d : Disk} {roots : List Root} {doc : Doc} (hj : c ≠ .json) (hr : roots.length ≤ 1 ∨ c = .binary)
    (h : encode c d roots = some (doc, [])) : decode c doc = some roots := by
  have hw : ∀ {x doc : Doc}, write d x = (doc, []) → doc = x := by
    intro x doc h
    simp only [write] at h
    split at h
    · simp at h; exact h.symm
    · simp at h
  cases c with
  | json => exact absurd rfl hj
  | xml =>
    rcases hr with hr | hr
    · match roots, hr with
      | [], _ => simp [encode] at h; subst h; simp [decode]
      | [r], _ =>
        simp only [encode, Option.some.injEq, Prod.mk.injEq, List.append_eq_nil_iff, List.map_eq_nil_iff] at h
        obtain ⟨h1, h2, h3⟩ := h
        have := hw (doc := doc) (x := .header .xml :: rootDoc r) (by rw [Prod.ext_iff]; exact ⟨h1, h3⟩)
        subst this
        have hg : Item.unwritable ∉ r := by
          intro hm
          have : Item.unwritable ∈ r.filter (· = .unwritable) := by simp [hm]
          rw [h2] at this; simp at this
        simp only [decode, ↓reduceIte, rootDoc]
        rw [parse_root hg]
        simp [parse]
    · simp at hr
  | binary =>
    simp only [encode, Option.some.injEq, Prod.mk.injEq] at h
    obtain ⟨h1, h2⟩ := h
    split at h2
    · rename_i hh; exact absurd h2 hh
    · rename_i hh
      simp only [ne_eq, Decidable.not_not] at hh
      split at h2
      · rename_i ht
        have := hw (doc := doc) (by rw [Prod.ext_iff]; exact ⟨h1, hh⟩)
        subst this
        simp only [decode, ↓reduceIte]
        exact upTo_good roots ht
      · simp at h2
  | sql =>
    rcases hr with hr | hr
    · have ht1 : roots.take 1 = roots := List.take_of_length_le hr
      · simp only [encode, ht1] at h
        split at h
        · simp only [Option.some.injEq, Prod.mk.injEq, List.append_eq_nil_iff] at h
          obtain ⟨h1, h2, h3⟩ := h
          split at h2
          · rename_i ht
            have := hw (doc := doc) (by rw [Prod.ext_iff]; exact ⟨h1, h3⟩)
            subst this
            simp only [decode, ↓reduceIte]
            exact upTo_good roots ht
          · simp at h2
        · simp at h
    · simp at hr

/-- only a save to a URI changes its file -/
theorem step_files (cfg : Cfg) (s : St) (op : Op) (u : Nat) (h : ∀ i d, op = .save i d → (s.res i).uri ≠ some u) :
    (step cfg s op).1.files u = s.files u := by
  cases op with
  | save i d =>
    have h := h i d rfl
    simp only [step, save]
    split
    · rfl
    · rename_i v hv
      have hne : ¬ u = v := fun e => h (by rw [hv, e])
      split
      · rfl
      · rfl
      · split
        · split
          · simp [setRes, setFile, hne]
          · split <;> simp [setRes, setFile, hne]
        · rfl
  | load i d =>
    simp only [step, load]
    split
    · rfl
    · split
      · rfl
      · split
        · rfl
        · rfl
        · split
          · rfl
          · split
            · rfl
            · rfl
            · split <;> rfl
  | unload i => simp only [step]; split <;> rfl
  | setURI i u => rfl
  | edit i c => rfl

theorem run_files (cfg : Cfg) (u : Nat) (B : List Op) : ∀ s : St,
    (∀ B1 j d B2, B = B1 ++ .save j d :: B2 → ((run cfg s B1).res j).uri ≠ some u) → (run cfg s B).files u = s.files u := by
  induction B with
  | nil => intro s _; rfl
  | cons op B ih =>
    intro s h
    simp only [run]
    rw [ih, step_files]
    · intro i d e
      exact h [] i d B (by simp [e])
    · intro B1 j d B2 e
      exact h (op :: B1) j d B2 (by simp [e])

end Verif.Save
