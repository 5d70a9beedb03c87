import Verif.Spec.Processor

/-!
# Proofs about processors
-/

namespace Verif.Processor

/-- what every step keeps, and what it adds -/
structure Step (s s' : St) (op : Op) : Prop where
  given : s'.given = s.given
  sets : s.sets ≤ s'.sets
  old : ∀ (i : Nat) (x : Res), s.res[i]? = some x → ∃ x', s'.res[i]? = some x' ∧ x'.uri = x.uri ∧ x'.set = x.set ∧ ∀ d, x.doc = some d → x'.doc = some d
  len : s.res.length ≤ s'.res.length
  new : ∀ (i : Nat) (x : Res), s.res.length ≤ i → s'.res[i]? = some x → op.makes x.uri ∧
    ((∃ y ∈ s.res, y.set = x.set) ∨ s.given = some x.set ∨ (s.given = none ∧ x.set = s.sets ∧ s.sets < s'.sets))

theorem step_same (s s' : St) (op : Op) (h1 : s'.given = s.given) (h2 : s.sets ≤ s'.sets) (h3 : s'.res = s.res) : Step s s' op := by
  refine ⟨h1, h2, fun i x h => ⟨x, by rw [h3]; exact h, rfl, rfl, fun _ h => h⟩, by simp [h3], fun i x hi h => ?_⟩
  rw [h3, List.getElem?_eq_none hi] at h
  cases h

theorem step_append (s s' : St) (op : Op) (y : Res) (h1 : s'.given = s.given) (h2 : s.sets ≤ s'.sets) (h3 : s'.res = s.res ++ [y]) (hm : op.makes y.uri)
    (hs : (∃ z ∈ s.res, z.set = y.set) ∨ s.given = some y.set ∨ (s.given = none ∧ y.set = s.sets ∧ s.sets < s'.sets)) : Step s s' op := by
  refine ⟨h1, h2, fun i x h => ⟨x, ?_, rfl, rfl, fun _ h => h⟩, by simp [h3], fun i x hi h => ?_⟩
  · rw [h3, List.getElem?_append_left (List.getElem?_eq_some_iff.1 h).1]; exact h
  · rw [h3, List.getElem?_append_right hi] at h
    have : i - s.res.length = 0 := by
      have := (List.getElem?_eq_some_iff.1 h).1
      simp at this
      omega
    rw [this] at h
    simp at h
    subst h
    exact ⟨hm, hs⟩

theorem step_spec (s : St) (op : Op) : Step s (step s op).1 op := by
  cases op with
  | getResourceSet =>
    refine step_same s _ _ ?_ ?_ ?_ <;> simp only [step, getResourceSet] <;> cases hg : s.given <;> simp [hg]
  | load u =>
    cases hg : s.given with
    | some g =>
      refine step_append s _ _ ⟨u, g, s.files u⟩ ?_ ?_ ?_ rfl (.inr (.inl hg)) <;> simp [step, load, getResourceSet, create, hg]
    | none =>
      refine step_append s _ _ ⟨u, s.sets, s.files u⟩ ?_ ?_ ?_ rfl (.inr (.inr ⟨hg, rfl, ?_⟩)) <;> simp [step, load, getResourceSet, create, hg]
  | loadReader d =>
    cases hg : s.given with
    | some g =>
      refine step_append s _ _ ⟨star, g, some d⟩ ?_ ?_ ?_ rfl (.inr (.inl hg)) <;> simp [step, loadReader, getResourceSet, create, hg]
    | none =>
      refine step_append s _ _ ⟨star, s.sets, some d⟩ ?_ ?_ ?_ rfl (.inr (.inr ⟨hg, rfl, ?_⟩)) <;> simp [step, loadReader, getResourceSet, create, hg]
  | saveObject u d =>
    cases hg : s.given with
    | some g =>
      refine step_append s _ _ ⟨u, g, some d⟩ ?_ ?_ ?_ rfl (.inr (.inl hg)) <;> simp [step, saveObject, getResourceSet, create, hg]
    | none =>
      refine step_append s _ _ ⟨u, s.sets, some d⟩ ?_ ?_ ?_ rfl (.inr (.inr ⟨hg, rfl, ?_⟩)) <;> simp [step, saveObject, getResourceSet, create, hg]
  | save r =>
    refine step_same s _ _ ?_ ?_ ?_ <;> simp only [step, save] <;> split <;> try split
    all_goals simp
  | resolve r u =>
    simp only [step, resolve]
    cases hr : s.res[r]? with
    | none => exact step_same s _ _ rfl (Nat.le_refl _) rfl
    | some x =>
      simp only [getResource]
      cases hf : s.res.findIdx? (fun y => y.set = x.set ∧ y.uri = u) with
      | none => exact step_append s _ _ ⟨u, x.set, s.files u⟩ rfl (Nat.le_refl _) rfl rfl (.inl ⟨x, List.mem_of_getElem? hr, rfl⟩)
      | some i =>
        simp only
        cases hi : s.res[i]? with
        | none => exact step_same s _ _ rfl (Nat.le_refl _) rfl
        | some y =>
          simp only
          cases hd : y.doc with
          | some d => exact step_same s _ _ (by simp) (by simp) (by simp)
          | none =>
            simp only [Option.isNone_none, if_true]
            refine ⟨rfl, Nat.le_refl _, fun j z hz => ?_, by simp, fun j z hj hz => ?_⟩
            · by_cases e : i = j
              · subst e
                rw [hi] at hz
                simp only [Option.some.injEq] at hz
                subst hz
                refine ⟨{ y with doc := s.files u }, ?_, rfl, rfl, fun d h => by rw [hd] at h; cases h⟩
                simp [List.getElem?_set_self (List.getElem?_eq_some_iff.1 hi).1]
              · exact ⟨z, by simp only; rw [List.getElem?_set_ne e]; exact hz, rfl, rfl, fun _ h => h⟩
            · have := (List.getElem?_eq_some_iff.1 hz).1
              simp at this
              omega

theorem run_append (s : St) (A B : List Op) : run s (A ++ B) = run (run s A) B := by
  induction A generalizing s with
  | nil => rfl
  | cons a A ih => exact ih _

/-- resources are kept -/
theorem run_old (B : List Op) : ∀ (s : St) (i : Nat) (x : Res), s.res[i]? = some x →
    ∃ x', (run s B).res[i]? = some x' ∧ x'.uri = x.uri ∧ x'.set = x.set ∧ ∀ d, x.doc = some d → x'.doc = some d := by
  induction B with
  | nil => intro s i x h; exact ⟨x, h, rfl, rfl, fun _ h => h⟩
  | cons b B ih =>
    intro s i x h
    obtain ⟨y, h1, h2, h3, h4⟩ := (step_spec s b).old i x h
    obtain ⟨z, k1, k2, k3, k4⟩ := ih _ i y h1
    exact ⟨z, k1, k2.trans h2, k3.trans h3, fun d hd => k4 d (h4 d hd)⟩

/-- with a resource set there is only this one -/
theorem run_given (B : List Op) : ∀ (s : St) (g : Nat), s.given = some g → (∀ x ∈ s.res, x.set = g) → (run s B).given = some g ∧ ∀ x ∈ (run s B).res, x.set = g := by
  induction B with
  | nil => intro s g h1 h2; exact ⟨h1, h2⟩
  | cons b B ih =>
    intro s g h1 h2
    have hs := step_spec s b
    refine ih _ g (hs.given.trans h1) (fun x hx => ?_)
    obtain ⟨i, hi⟩ := List.getElem?_of_mem hx
    by_cases hl : i < s.res.length
    · obtain ⟨y, k1, -, k3, -⟩ := hs.old i _ (List.getElem?_eq_getElem hl)
      rw [hi] at k1
      simp only [Option.some.injEq] at k1
      subst k1
      rw [k3]
      exact h2 _ (List.getElem_mem hl)
    · rcases (hs.new i x (by omega) hi).2 with ⟨y, hy, e⟩ | e | ⟨e, -⟩
      · rw [← e]; exact h2 y hy
      · rw [h1] at e; simpa using e.symm
      · rw [h1] at e; cases e

/-- without one, the sets of the resources have been made -/
theorem run_none (B : List Op) : ∀ (s : St), s.given = none → (∀ x ∈ s.res, x.set < s.sets) →
    (run s B).given = none ∧ s.sets ≤ (run s B).sets ∧ ∀ x ∈ (run s B).res, x.set < (run s B).sets := by
  induction B with
  | nil => intro s h1 h2; exact ⟨h1, Nat.le_refl _, h2⟩
  | cons b B ih =>
    intro s h1 h2
    have hs := step_spec s b
    have := ih (step s b).1 (hs.given.trans h1) (fun x hx => by
      obtain ⟨i, hi⟩ := List.getElem?_of_mem hx
      have hle := hs.sets
      by_cases hl : i < s.res.length
      · obtain ⟨y, k1, -, k3, -⟩ := hs.old i _ (List.getElem?_eq_getElem hl)
        rw [hi] at k1
        simp only [Option.some.injEq] at k1
        subst k1
        have := h2 _ (List.getElem_mem hl)
        omega
      · rcases (hs.new i x (by omega) hi).2 with ⟨y, hy, e⟩ | e | ⟨-, e, e'⟩
        · have := h2 y hy
          omega
        · rw [h1] at e; cases e
        · omega)
    exact ⟨this.1, Nat.le_trans hs.sets this.2.1, this.2.2⟩

/-- URIs nothing was made for -/
theorem run_makes (u : Nat) (B : List Op) : ∀ (s : St), (∀ x ∈ s.res, x.uri ≠ u) → (∀ b ∈ B, ¬ b.makes u) → ∀ x ∈ (run s B).res, x.uri ≠ u := by
  induction B with
  | nil => intro s h _; exact h
  | cons b B ih =>
    intro s h hb
    have hs := step_spec s b
    refine ih _ (fun x hx e => ?_) (fun b' h' => hb b' (by simp [h']))
    obtain ⟨i, hi⟩ := List.getElem?_of_mem hx
    by_cases hl : i < s.res.length
    · obtain ⟨y, k1, k2, -, -⟩ := hs.old i _ (List.getElem?_eq_getElem hl)
      rw [hi] at k1
      simp only [Option.some.injEq] at k1
      subst k1
      exact h _ (List.getElem_mem hl) (k2.symm.trans e)
    · exact hb b (by simp) (e ▸ (hs.new i x (by omega) hi).1)

/-- the search of a resource set -/
theorem getResource_first (s : St) (set u r : Nat) (x : Res) (hr : s.res[r]? = some x) (h1 : x.set = set) (h2 : x.uri = u)
    (hb : ∀ (i : Nat) (y : Res), i < r → s.res[i]? = some y → ¬ (y.set = set ∧ y.uri = u)) : (getResource s set u).2 = r := by
  have hf : s.res.findIdx? (fun y => y.set = set ∧ y.uri = u) = some r := by
    rw [List.findIdx?_eq_some_iff_getElem]
    obtain ⟨hl, he⟩ := List.getElem?_eq_some_iff.1 hr
    refine ⟨hl, by rw [he]; simp [h1, h2], fun j hj => ?_⟩
    simpa using hb j s.res[j] hj (List.getElem?_eq_getElem (by omega))
  simp only [getResource, hf, hr]
  split <;> rfl

/-- the resource is of the set -/
theorem getResource_in (s : St) (set u : Nat) : In (getResource s set u).1 (getResource s set u).2 set := by
  simp only [getResource]
  cases hf : s.res.findIdx? (fun y => y.set = set ∧ y.uri = u) with
  | none => exact ⟨_, by simp [create]; rfl, rfl⟩
  | some i =>
    rw [List.findIdx?_eq_some_iff_getElem] at hf
    obtain ⟨hl, he, -⟩ := hf
    simp only [decide_eq_true_eq] at he
    simp only [List.getElem?_eq_getElem hl]
    split
    · exact ⟨{ s.res[i] with doc := s.files u }, by simp [List.getElem?_set_self hl], he.1⟩
    · exact ⟨s.res[i], List.getElem?_eq_getElem hl, he.1⟩

end Verif.Processor
