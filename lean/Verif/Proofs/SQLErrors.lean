import Verif.Spec.SQLErrors

namespace Verif.SQLErrors

theorem run_append (E : Env) (a b : List Op) (s : State) : run E s (a ++ b) = run E (run E s a) b := by
  induction a generalizing s with
  | nil => rfl
  | cons op a ih => simp only [List.cons_append, run, ih]

theorem last_snoc (E : Env) (ops : List Op) (op : Op) (o f : Nat) : last E (ops ++ [op]) o f = (op.gives E o f).getD (last E ops o f) := by
  simp only [last, List.filterMap_append, List.filterMap_cons, List.filterMap_nil]
  cases op.gives E o f <;> simp

/-- nothing is left in the queue of the table -/
def Clean (s : State) (t : Nat) : Prop := s.readLeft t = false ∧ s.writeLeft t = false

/-- the columns of the table are as they have to be -/
def Good (E : Env) (s : State) (before : List Op) (t : Nat) : Prop :=
  Clean s t ∧ ∀ o f, E.table f = t → s.val o f = last E before o f

/-- a call that concerns another table -/
theorem step_other (E : Env) (s : State) (op : Op) (t : Nat) (h : E.table op.feature ≠ t) :
    ((step E s op).1.readLeft t = s.readLeft t ∧ (step E s op).1.writeLeft t = s.writeLeft t) ∧ ∀ o f, E.table f = t → (step E s op).1.val o f = s.val o f := by
  cases op with
  | get o g r =>
    simp only [step, getValue, read, Op.feature] at *
    split <;> simp [Ne.symm h]
  | isSet o g r =>
    simp only [step, read, Op.feature] at *
    split <;> simp [Ne.symm h]
  | unset o g w =>
    simp only [step, write, Op.feature] at *
    split
    · simp [Ne.symm h]
    · refine ⟨⟨rfl, rfl⟩, fun p f hf => ?_⟩
      have : ¬ (p = o ∧ f = g) := fun e => h (e.2 ▸ hf)
      simp [State.put, this]
  | set o g v nr r w =>
    simp only [Op.feature] at h
    have hw : ∀ s : State, ((write s (E.table g) w).1.readLeft t = s.readLeft t ∧ (write s (E.table g) w).1.writeLeft t = s.writeLeft t) ∧
        (write s (E.table g) w).1.val = s.val := by
      intro s
      simp only [write]
      split <;> simp [Ne.symm h]
    have hr : ((read s (E.table g) r).1.readLeft t = s.readLeft t ∧ (read s (E.table g) r).1.writeLeft t = s.writeLeft t) ∧ (read s (E.table g) r).1.val = s.val := by
      simp only [read]
      split <;> simp [Ne.symm h]
    have hput : ∀ (s : State) p f, E.table f = t → (s.put o g v).val p f = s.val p f := by
      intro s p f hf
      have : ¬ (p = o ∧ f = g) := fun e => h (e.2 ▸ hf)
      simp [State.put, this]
    cases nr
    · simp only [step, doSet, Bool.false_eq_true, if_false]
      obtain ⟨h1, h2⟩ := hw s
      split
      · exact ⟨h1, fun p f hf => by rw [hput _ p f hf, h2]⟩
      · exact ⟨h1, fun p f hf => by rw [h2]⟩
    · simp only [step, doSet, if_true, getValue]
      obtain ⟨h1, h2⟩ := hw (read s (E.table g) r).1
      split
      · exact ⟨⟨h1.1.trans hr.1.1, h1.2.trans hr.1.2⟩, fun p f hf => by rw [hput _ p f hf, h2, hr.2]⟩
      · exact ⟨⟨h1.1.trans hr.1.1, h1.2.trans hr.1.2⟩, fun p f hf => by rw [h2, hr.2]⟩

theorem gives_other (E : Env) (op : Op) (o f t : Nat) (h : E.table op.feature ≠ t) (hf : E.table f = t) : op.gives E o f = none := by
  cases op with
  | get => rfl
  | isSet => rfl
  | set p g v nr r w =>
    have : ¬ (p = o ∧ g = f) := fun e => h (by simp only [Op.feature]; rw [e.2]; exact hf)
    simp [Op.gives, this]
  | unset p g w =>
    have : ¬ (p = o ∧ g = f) := fun e => h (by simp only [Op.feature]; rw [e.2]; exact hf)
    simp [Op.gives, this]

theorem read_clean (s : State) (t : Nat) (h : Clean s t) : read s t false = (s, true) := by simp [read, h.2]

theorem write_clean (s : State) (t : Nat) (h : Clean s t) : write s t false = (s, true) := by simp [write, h.1, h.2]

/-- a call of the table that works -/
theorem step_works (E : Env) (s : State) (op : Op) (before : List Op) (t : Nat) (ht : E.table op.feature = t) (hg : Good E s before t) (hw : op.works) :
    (step E s op).2 = expected E before op ∧ Good E (step E s op).1 (before ++ [op]) t := by
  obtain ⟨hc, hv⟩ := hg
  cases op with
  | get o g r =>
    simp only [Op.works] at hw
    subst hw
    simp only [Op.feature] at ht
    simp only [step, getValue, ht, read_clean s t hc, if_true, expected, hv o g ht, true_and]
    exact ⟨hc, fun p f hf => by rw [last_snoc]; exact hv p f hf⟩
  | isSet o g r =>
    simp only [Op.works] at hw
    subst hw
    simp only [Op.feature] at ht
    simp only [step, ht, read_clean s t hc, expected, hv o g ht, Bool.true_and, true_and]
    exact ⟨hc, fun p f hf => by rw [last_snoc]; exact hv p f hf⟩
  | unset o g w =>
    simp only [Op.works] at hw
    subst hw
    simp only [Op.feature] at ht
    simp only [step, ht, write_clean s t hc, if_true, expected, true_and]
    refine ⟨hc, fun p f hf => ?_⟩
    rw [last_snoc]
    simp only [State.put, Op.gives]
    by_cases e : p = o ∧ f = g
    · obtain ⟨rfl, rfl⟩ := e; simp
    · have e' : ¬ (o = p ∧ g = f) := fun h => e ⟨h.1.symm, h.2.symm⟩
      rw [if_neg e, if_neg e']; exact hv p f hf
  | set o g v nr r w =>
    simp only [Op.works] at hw
    obtain ⟨h1, h2⟩ := hw
    subst h2
    simp only [Op.feature] at ht
    have hgood : Good E (s.put o g v) (before ++ [.set o g v nr r false]) t := by
      refine ⟨hc, fun p f hf => ?_⟩
      rw [last_snoc]
      simp only [State.put, Op.gives]
      by_cases e : p = o ∧ f = g
      · obtain ⟨rfl, rfl⟩ := e; simp
      · have e' : ¬ (o = p ∧ g = f) := fun h => e ⟨h.1.symm, h.2.symm⟩
        rw [if_neg e, if_neg e']; exact hv p f hf
    cases nr
    · simp only [step, doSet, Bool.false_eq_true, if_false, ht, write_clean s t hc, if_true, expected, true_and]
      exact hgood
    · have := h1 rfl
      subst this
      simp only [step, doSet, if_true, getValue, ht, read_clean s t hc, write_clean s t hc, expected, hv o g ht, true_and]
      exact hgood

theorem run_good (E : Env) (t : Nat) (ops before : List Op) (s : State) (hg : Good E s before t)
    (h : ∀ op ∈ ops, E.table op.feature = t → op.works) : Good E (run E s ops) (before ++ ops) t := by
  induction ops generalizing s before with
  | nil => simpa [run] using hg
  | cons op ops ih =>
    simp only [run]
    have : Good E (step E s op).1 (before ++ [op]) t := by
      by_cases ht : E.table op.feature = t
      · exact (step_works E s op before t ht hg (h op (by simp) ht)).2
      · obtain ⟨h1, h2⟩ := step_other E s op t ht
        refine ⟨⟨h1.1.trans hg.1.1, h1.2.trans hg.1.2⟩, fun o f hf => ?_⟩
        rw [h2 o f hf, last_snoc, gives_other E op o f t ht hf]
        exact hg.2 o f hf
    have := ih (before ++ [op]) _ this (fun op' h' => h op' (by simp [h']))
    simpa using this

/-! ### after a failure -/

/-- something is left in the queue: no statement that writes is executed any more -/
theorem step_stuck (E : Env) (s : State) (op : Op) (t : Nat) (h : s.readLeft t = true ∨ s.writeLeft t = true) :
    (((step E s op).1.readLeft t = true ∨ (step E s op).1.writeLeft t = true) ∧ (s.writeLeft t = true → (step E s op).1.writeLeft t = true)) ∧
      ∀ o f, E.table f = t → (step E s op).1.val o f = s.val o f := by
  by_cases ht : E.table op.feature = t
  · have hread : ∀ r, ((read s t r).1.readLeft t = true ∨ (read s t r).1.writeLeft t = true) ∧ (read s t r).1.writeLeft = s.writeLeft ∧ (read s t r).1.val = s.val := by
      intro r
      simp only [read]
      split
      · simp
      · exact ⟨h, rfl, rfl⟩
    have hwrite : ∀ s : State, (s.readLeft t = true ∨ s.writeLeft t = true) → ∀ w, (write s t w).2 = false ∧ (write s t w).1.writeLeft t = true ∧ (write s t w).1.val = s.val := by
      intro s h w
      have : (s.readLeft t || s.writeLeft t || w) = true := by rcases h with h | h <;> simp [h]
      simp [write, this]
    cases op with
    | get o g r =>
      simp only [Op.feature] at ht
      simp only [step, getValue, ht]
      obtain ⟨h1, h2, h3⟩ := hread r
      exact ⟨⟨h1, fun e => h2 ▸ e⟩, fun o f _ => by rw [h3]⟩
    | isSet o g r =>
      simp only [Op.feature] at ht
      simp only [step, ht]
      obtain ⟨h1, h2, h3⟩ := hread r
      exact ⟨⟨h1, fun e => h2 ▸ e⟩, fun o f _ => by rw [h3]⟩
    | unset o g w =>
      simp only [Op.feature] at ht
      obtain ⟨h1, h2, h3⟩ := hwrite s h w
      simp only [step, ht, h1, Bool.false_eq_true, if_false]
      exact ⟨⟨.inr h2, fun _ => h2⟩, fun o f _ => by rw [h3]⟩
    | set o g v nr r w =>
      simp only [Op.feature] at ht
      cases nr
      · obtain ⟨h1, h2, h3⟩ := hwrite s h w
        simp only [step, doSet, Bool.false_eq_true, if_false, ht, h1]
        exact ⟨⟨.inr h2, fun _ => h2⟩, fun o f _ => by rw [h3]⟩
      · obtain ⟨h4, h5, h6⟩ := hread r
        obtain ⟨h1, h2, h3⟩ := hwrite (read s t r).1 h4 w
        simp only [step, doSet, getValue, if_true, ht, h1, Bool.false_eq_true, if_false]
        exact ⟨⟨.inr h2, fun _ => h2⟩, fun o f _ => by rw [h3, h6]⟩
  · obtain ⟨h1, h2⟩ := step_other E s op t ht
    exact ⟨⟨by rw [h1.1, h1.2]; exact h, fun e => by rw [h1.2]; exact e⟩, h2⟩

theorem run_stuck (E : Env) (t : Nat) (ops : List Op) (s : State) (h : s.readLeft t = true ∨ s.writeLeft t = true) :
    (((run E s ops).readLeft t = true ∨ (run E s ops).writeLeft t = true) ∧ (s.writeLeft t = true → (run E s ops).writeLeft t = true)) ∧
      ∀ o f, E.table f = t → (run E s ops).val o f = s.val o f := by
  induction ops generalizing s with
  | nil => exact ⟨⟨h, id⟩, fun _ _ _ => rfl⟩
  | cons op ops ih =>
    obtain ⟨⟨h1, h2⟩, h3⟩ := step_stuck E s op t h
    obtain ⟨⟨h4, h5⟩, h6⟩ := ih _ h1
    exact ⟨⟨h4, fun e => h5 (h2 e)⟩, fun o f hf => (h6 o f hf).trans (h3 o f hf)⟩

theorem init_good (E : Env) (t : Nat) : Good E (init E) [] t := ⟨⟨rfl, rfl⟩, fun _ _ _ => rfl⟩

end Verif.SQLErrors
