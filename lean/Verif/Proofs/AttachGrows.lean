import Verif.Proofs.AttachOps

/-! What any program does to the managers and to the listeners, for C79. -/

namespace Verif.Attach
open Verif.Graph (LOp)

section
variable {ID G : Type} [DecidableEq ID]

/-- a call of `Register` or `UnRegister` -/
def Quiet : IDManager.Op ID → Prop
  | .register _ => True
  | .unRegister _ => True
  | _ => False

/-- managers and listeners after some calls -/
structure Grows (c : IDManager.Cfg ID G) (P : IDManager.Op ID → Prop) (w w' : World ID G) : Prop where
  mgr : ∀ r m, w.mgr r = some m → ∃ ms, (∀ op ∈ ms, P op) ∧ w'.mgr r = some (IDManager.run c m ms)
  nomgr : ∀ r, w.mgr r = none → w'.mgr r = none
  heard : ∀ r l, w.heard r = some l → ∃ l', w'.heard r = some (l ++ l')
  noheard : ∀ r, w.heard r = none → w'.heard r = none

theorem irun_append (c : IDManager.Cfg ID G) (m : IDManager.St ID G) (a b : List (IDManager.Op ID)) :
    IDManager.run c m (a ++ b) = IDManager.run c (IDManager.run c m a) b := by
  induction a generalizing m with
  | nil => rfl
  | cons x a ih => exact ih _

theorem Grows.refl {c : IDManager.Cfg ID G} {P : IDManager.Op ID → Prop} (w w' : World ID G) (h1 : w'.mgr = w.mgr)
    (h2 : w'.heard = w.heard) : Grows c P w w' :=
  ⟨fun r m h => ⟨[], by simp, by rw [h1]; exact h⟩, fun r h => by rw [h1]; exact h, fun r l h => ⟨[], by rw [h2]; simp [h]⟩,
    fun r h => by rw [h2]; exact h⟩

theorem Grows.trans {c : IDManager.Cfg ID G} {P : IDManager.Op ID → Prop} {w1 w2 w3 : World ID G} (h : Grows c P w1 w2)
    (h' : Grows c P w2 w3) : Grows c P w1 w3 := by
  refine ⟨fun r m hm => ?_, fun r hr => h'.nomgr r (h.nomgr r hr), fun r l hl => ?_, fun r hr => h'.noheard r (h.noheard r hr)⟩
  · obtain ⟨a, ha, e⟩ := h.mgr r m hm
    obtain ⟨b, hb, e'⟩ := h'.mgr r _ e
    refine ⟨a ++ b, fun op ho => ?_, by rw [e', irun_append]⟩
    rcases List.mem_append.1 ho with ho | ho
    · exact ha op ho
    · exact hb op ho
  · obtain ⟨a, e⟩ := h.heard r l hl
    obtain ⟨b, e'⟩ := h'.heard r _ e
    exact ⟨a ++ b, by rw [e', List.append_assoc]⟩

theorem Grows.mono {c : IDManager.Cfg ID G} {P Q : IDManager.Op ID → Prop} {w w' : World ID G} (h : Grows c P w w')
    (hpq : ∀ op, P op → Q op) : Grows c Q w w' :=
  ⟨fun r m hm => by obtain ⟨ms, h1, h2⟩ := h.mgr r m hm; exact ⟨ms, fun op ho => hpq op (h1 op ho), h2⟩, h.nomgr, h.heard, h.noheard⟩

theorem grows_doAttached (c : IDManager.Cfg ID G) (r : Nat) (w : World ID G) (o : Nat) : Grows c Quiet w (doAttached c r w o) := by
  refine ⟨fun r' m hm => ?_, fun r' hr => ?_, fun r' l hl => ?_, fun r' hr => ?_⟩ <;> simp only [doAttached, put]
  · by_cases e : r' = r
    · subst e; exact ⟨[.register o], by simp [Quiet], by simp [hm, IDManager.run, IDManager.step]⟩
    · exact ⟨[], by simp, by simp [e, hm, IDManager.run]⟩
  · split
    · next e => subst e; simp [hr]
    · exact hr
  · split
    · next e => subst e; exact ⟨_, by simp [hl]; rfl⟩
    · exact ⟨[], by simp [hl]⟩
  · split
    · next e => subst e; simp [hr]
    · exact hr

theorem grows_doDetached (c : IDManager.Cfg ID G) (r : Nat) (w : World ID G) (o : Nat) : Grows c Quiet w (doDetached c r w o) := by
  refine ⟨fun r' m hm => ?_, fun r' hr => ?_, fun r' l hl => ?_, fun r' hr => ?_⟩ <;> simp only [doDetached, put]
  · by_cases e : r' = r
    · subst e; exact ⟨[.unRegister o], by simp [Quiet], by simp [hm, IDManager.run, IDManager.step]⟩
    · exact ⟨[], by simp, by simp [e, hm, IDManager.run]⟩
  · split
    · next e => subst e; simp [hr]
    · exact hr
  · split
    · next e => subst e; exact ⟨_, by simp [hl]; rfl⟩
    · exact ⟨[], by simp [hl]⟩
  · split
    · next e => subst e; simp [hr]
    · exact hr

theorem grows_foldl {c : IDManager.Cfg ID G} {P : IDManager.Op ID → Prop} {f : World ID G → Nat → World ID G} (hf : ∀ w o, Grows c P w (f w o)) : ∀ (l : List Nat) (w : World ID G), Grows c P w (l.foldl f w) := by
  intro l
  induction l with
  | nil => intro w; exact .refl _ _ rfl rfl
  | cons o l ih => intro w; exact (hf w o).trans (ih _)

theorem grows_attached {c : IDManager.Cfg ID G} {M : List Ref} {n : Nat} {w w' : World ID G} {r o : Nat}
    (h : attached c M n w r o = some w') : Grows c Quiet w w' := by
  unfold attached at h
  split at h
  · obtain ⟨l, _, rfl⟩ := Option.map_eq_some_iff.1 h
    exact grows_foldl (grows_doAttached c r) l w
  · injection h with h; subst h; exact .refl _ _ rfl rfl

theorem grows_detached {c : IDManager.Cfg ID G} {M : List Ref} {n : Nat} {w w' : World ID G} {r o : Nat}
    (h : detached c M n w r o = some w') : Grows c Quiet w w' := by
  unfold detached at h
  split at h
  · obtain ⟨l, _, rfl⟩ := Option.map_eq_some_iff.1 h
    exact grows_foldl (grows_doDetached c r) l w
  · injection h with h; subst h; exact .refl _ _ rfl rfl

theorem grows_switch {c : IDManager.Cfg ID G} {M : List Ref} {n : Nat} {w w' : World ID G} {o : Nat} {b : Option (Nat × Nat)}
    {t1 : Tree} {old new : Option Nat} (h : ((leave c M n { w with tree := t1 } o old new).bind fun w2 =>
      enter c M n { w2 with tree := w2.tree.setBox o b } o old new) = some w') : Grows c Quiet w w' := by
  obtain ⟨w2, h1, h2⟩ := Option.bind_eq_some_iff.1 h
  have a : Grows c Quiet { w with tree := t1 } w2 := by
    unfold leave at h1
    split at h1
    · split at h1
      · exact grows_detached h1
      · injection h1 with h1; subst h1; exact .refl _ _ rfl rfl
    · injection h1 with h1; subst h1; exact .refl _ _ rfl rfl
  have b' : Grows c Quiet { w2 with tree := w2.tree.setBox o b } w' := by
    unfold enter at h2
    split at h2
    · split at h2
      · exact grows_attached h2
      · injection h2 with h2; subst h2; exact .refl _ _ rfl rfl
    · injection h2 with h2; subst h2; exact .refl _ _ rfl rfl
  exact (Grows.refl (c := c) (P := Quiet) w { w with tree := t1 } rfl rfl).trans
    (a.trans ((Grows.refl (c := c) (P := Quiet) w2 { w2 with tree := w2.tree.setBox o b } rfl rfl).trans b'))

theorem grows_basicSetContainer {c : IDManager.Cfg ID G} {M : List Ref} {n : Nat} {w w' : World ID G} {o : Nat} {b : Option (Nat × Nat)}
    (h : basicSetContainer c M n w o b = some w') : Grows c Quiet w w' := by
  unfold basicSetContainer at h
  simp only [Option.bind_eq_bind] at h
  split at h
  · split at h
    · split at h
      · simp only [Option.bind_assoc, Option.bind_some] at h
        obtain ⟨new, _, h⟩ := Option.bind_eq_some_iff.1 h
        exact grows_switch h
      · simp only [Option.bind_some] at h; exact grows_switch h
    · simp only [Option.bind_some] at h; exact grows_switch h
  · simp only [Option.bind_assoc, Option.bind_some] at h
    obtain ⟨old, _, h⟩ := Option.bind_eq_some_iff.1 h
    obtain ⟨new, _, h⟩ := Option.bind_eq_some_iff.1 h
    exact grows_switch h

theorem Grows.after {c : IDManager.Cfg ID G} {P : IDManager.Op ID → Prop} {w w1 w' : World ID G} (h : Grows c P w1 w')
    (h1 : w1.mgr = w.mgr) (h2 : w1.heard = w.heard) : Grows c P w w' := (Grows.refl w w1 h1 h2).trans h

theorem grows_setResource {c : IDManager.Cfg ID G} {M : List Ref} {n : Nat} {w w' : World ID G} {o : Nat} {new : Option Nat}
    (h : setResource c M n w o new = some w') : Grows c Quiet w w' := by
  unfold setResource at h
  simp only [Option.bind_eq_bind] at h
  obtain ⟨w1, h1, h⟩ := Option.bind_eq_some_iff.1 h
  obtain ⟨w2, h2, h⟩ := Option.bind_eq_some_iff.1 h
  injection h with h; subst h
  have a : Grows c Quiet w w1 := by
    unfold leaveOwn at h1
    split at h1
    · exact (grows_detached h1).after rfl rfl
    · injection h1 with h1; subst h1; exact .refl _ _ rfl rfl
  have b : Grows c Quiet w1 w2 := by
    unfold leaveBox at h2
    split at h2
    · injection h2 with h2; subst h2; exact .refl _ _ rfl rfl
    · split at h2
      · split at h2
        · simp at h2
        · injection h2 with h2; subst h2; exact .refl _ _ rfl rfl
        · exact grows_attached h2
        · exact grows_detached h2
        · injection h2 with h2; subst h2; exact .refl _ _ rfl rfl
      · exact (grows_basicSetContainer h2).after rfl rfl
  exact a.trans (b.trans (.refl _ _ rfl rfl))

theorem grows_each {c : IDManager.Cfg ID G} {P : IDManager.Op ID → Prop} {f : World ID G → Nat → Option (World ID G)}
    (hf : ∀ w o w', f w o = some w' → Grows c P w w') : ∀ (l : List Nat) (w w' : World ID G), each f w l = some w' → Grows c P w w' := by
  intro l
  induction l with
  | nil => intro w w' h; simp [each] at h; subst h; exact .refl _ _ rfl rfl
  | cons o l ih =>
    intro w w' h
    simp only [each] at h
    obtain ⟨w1, h1, h2⟩ := Option.bind_eq_some_iff.1 h
    exact (hf _ _ _ h1).trans (ih _ _ h2)

theorem grows_kidAdd {c : IDManager.Cfg ID G} {M : List Ref} {n p k : Nat} (w : World ID G) (o : Nat) (w' : World ID G)
    (h : kidAdd c M n p k w o = some w') : Grows c Quiet w w' :=
  (Grows.refl (c := c) (P := Quiet) w { w with tree := takeOut M w.tree o } rfl rfl).trans (grows_basicSetContainer h)

theorem grows_kidRemove {c : IDManager.Cfg ID G} {M : List Ref} {n : Nat} (w : World ID G) (o : Nat) (w' : World ID G)
    (h : kidRemove c M n w o = some w') : Grows c Quiet w w' := grows_basicSetContainer h

theorem grows_rootAdd {c : IDManager.Cfg ID G} {M : List Ref} {n r : Nat} (w : World ID G) (o : Nat) (w' : World ID G)
    (h : rootAdd c M n r w o = some w') : Grows c Quiet w w' := by
  unfold rootAdd at h
  simp only [Option.bind_eq_bind] at h
  obtain ⟨w1, h1, h2⟩ := Option.bind_eq_some_iff.1 h
  exact (grows_setResource h1).trans (grows_attached h2)

theorem grows_rootRemove {c : IDManager.Cfg ID G} {M : List Ref} {n r : Nat} (w : World ID G) (o : Nat) (w' : World ID G)
    (h : rootRemove c M n r w o = some w') : Grows c Quiet w w' := by
  unfold rootRemove at h
  simp only [Option.bind_eq_bind] at h
  obtain ⟨w1, h1, h2⟩ := Option.bind_eq_some_iff.1 h
  exact (grows_detached h1).trans (grows_setResource h2)

theorem grows_step {c : IDManager.Cfg ID G} {M : List Ref} {n : Nat} {w w' : World ID G} {op : Op} (h : step c M n w op = some w')
    (hu : ∀ r, op ≠ .unload r) : Grows c Quiet w w' := by
  cases op with
  | contents r op =>
    simp only [step, contentsOp, Option.bind_eq_bind] at h
    obtain ⟨⟨l, out, inn⟩, _, h⟩ := Option.bind_eq_some_iff.1 h
    simp only [] at h
    obtain ⟨w1, h1, h2⟩ := Option.bind_eq_some_iff.1 h
    exact (Grows.refl (c := c) (P := Quiet) w { w with tree := w.tree.setRoots r l } rfl rfl).trans
      ((grows_each grows_rootRemove out _ _ h1).trans (grows_each grows_rootAdd inn _ _ h2))
  | list p k op =>
    simp only [step, listOp] at h
    split at h
    · simp only [Option.bind_eq_bind] at h
      obtain ⟨⟨l, out, inn⟩, _, h⟩ := Option.bind_eq_some_iff.1 h
      simp only [] at h
      obtain ⟨w1, h1, h2⟩ := Option.bind_eq_some_iff.1 h
      exact (Grows.refl (c := c) (P := Quiet) w { w with tree := w.tree.setKids p k l } rfl rfl).trans
        ((grows_each grows_kidRemove out _ _ h1).trans (grows_each grows_kidAdd inn _ _ h2))
    · simp at h
  | set p k v =>
    simp only [step, setKid] at h
    split at h
    · split at h
      · injection h with h; subst h; exact .refl _ _ rfl rfl
      · simp only [Option.bind_eq_bind] at h
        obtain ⟨w1, h1, h⟩ := Option.bind_eq_some_iff.1 h
        obtain ⟨w2, h2, h⟩ := Option.bind_eq_some_iff.1 h
        injection h with h; subst h
        exact (grows_each grows_kidRemove _ _ _ h1).trans ((grows_each grows_kidAdd _ _ _ h2).trans (.refl _ _ rfl rfl))
    · simp at h
  | container o k v =>
    simp only [step, setContainer] at h
    split at h
    · split at h
      · simp only [Option.bind_eq_bind] at h
        split at h
        · simp only [Option.bind_some] at h; exact (grows_basicSetContainer h).after rfl rfl
        · split at h
          · simp only [Option.bind_some] at h; exact (grows_basicSetContainer h).after rfl rfl
          · simp only [Option.bind_assoc, Option.bind_some] at h
            obtain ⟨w3, h3, h⟩ := Option.bind_eq_some_iff.1 h
            exact ((grows_each grows_kidRemove _ _ _ h3).trans ((grows_basicSetContainer h).after rfl rfl)).after rfl rfl
      · injection h with h; subst h; exact .refl _ _ rfl rfl
    · simp at h
  | unload r => exact absurd rfl (hu r)

theorem grows_run {c : IDManager.Cfg ID G} {M : List Ref} {n : Nat} : ∀ (ops : List Op) (w w' : World ID G),
    run c M n w ops = some w' → (∀ r, Op.unload r ∉ ops) → Grows c Quiet w w' := by
  intro ops
  induction ops with
  | nil => intro w w' h _; simp [run] at h; subst h; exact .refl _ _ rfl rfl
  | cons op ops ih =>
    intro w w' h hu
    simp only [run] at h
    obtain ⟨w1, h1, h2⟩ := Option.bind_eq_some_iff.1 h
    exact (grows_step h1 fun r e => hu r (by simp [e])).trans (ih _ _ h2 fun r e => hu r (by simp [e]))

/-- a call of `Register`, `UnRegister` or `Clear` -/
def Calm : IDManager.Op ID → Prop
  | .setID _ _ => False
  | _ => True

theorem grows_run_any {c : IDManager.Cfg ID G} {M : List Ref} {n : Nat} : ∀ (ops : List Op) (w w' : World ID G),
    run c M n w ops = some w' → Grows c Calm w w' := by
  intro ops
  induction ops with
  | nil => intro w w' h; simp [run] at h; subst h; exact .refl _ _ rfl rfl
  | cons op ops ih =>
    intro w w' h
    simp only [run] at h
    obtain ⟨w1, h1, h2⟩ := Option.bind_eq_some_iff.1 h
    refine Grows.trans ?_ (ih _ _ h2)
    by_cases hu : ∃ r, op = .unload r
    · obtain ⟨r, rfl⟩ := hu
      simp only [step, Option.some.injEq] at h1
      subst h1
      refine ⟨fun r' m hm => ?_, fun r' hr => ?_, fun r' l hl => ⟨[], by simp [hl]⟩, fun r' hr => hr⟩ <;> simp only [put]
      · by_cases e : r' = r
        · subst e; exact ⟨[.clear], by simp [Calm], by simp [hm, IDManager.run]⟩
        · exact ⟨[], by simp, by simp [e, hm, IDManager.run]⟩
      · split
        · next e => subst e; simp [hr]
        · exact hr
    · refine (grows_step h1 fun r e => hu ⟨r, e⟩).mono fun op ho => ?_
      cases op <;> simp_all [Quiet, Calm]

/-- all IDs of a manager are valid -/
structure Valid (c : IDManager.Cfg ID G) (good : G → Prop) (m : IDManager.St ID G) : Prop where
  gen : good m.gen
  det : ∀ p id, m.det p = some id → c.isValidID id = true
  o2i : ∀ o id, m.o2i o = some id → c.isValidID id = true

/-- the ID of `o` is `id`, or will be -/
def Kept (c : IDManager.Cfg ID G) (o : Nat) (id : ID) (m : IDManager.St ID G) : Prop :=
  m.o2i o = some id ∨ (m.o2i o = none ∧ m.det (c.ptr o) = some id)

theorem register_cases (c : IDManager.Cfg ID G) (good : G → Prop) (hw : Works c good) {m : IDManager.St ID G} (h : Valid c good m) (x : Nat) :
    IDManager.register c m x = m ∨
    (m.o2i x = none ∧ ∃ id, c.isValidID id = true ∧ (∀ i, m.det (c.ptr x) = some i → i = id) ∧
      (IDManager.register c m x).o2i = IDManager.upd m.o2i x (some id) ∧
      ((IDManager.register c m x).det = IDManager.upd m.det (c.ptr x) none) ∧ good (IDManager.register c m x).gen) := by
  unfold IDManager.register
  cases e : m.o2i x with
  | some i => exact .inl rfl
  | none =>
    right
    refine ⟨rfl, ?_⟩
    dsimp only
    cases d : m.det (c.ptr x) with
    | some id =>
      have hv := h.det _ _ d
      refine ⟨id, hv, by simp, ?_, ?_, ?_⟩ <;> simp only [IDManager.setObjectID, e, hv, if_true]
      exact hw.set _ _ h.gen hv
    | none =>
      obtain ⟨hv, hg⟩ := hw.new _ h.gen
      refine ⟨(c.newID m.gen).1, hv, by simp, ?_, ?_, ?_⟩ <;> simp only [IDManager.setObjectID, e, hv, if_true]
      · funext p; simp only [IDManager.upd]; split
        · next e => rw [e, d]
        · rfl
      · exact hw.set _ _ hg hv

theorem valid_step {c : IDManager.Cfg ID G} {good : G → Prop} (hw : Works c good) {m : IDManager.St ID G} (h : Valid c good m)
    (op : IDManager.Op ID) (hop : Calm op) : Valid c good (IDManager.step c m op) := by
  cases op with
  | register x =>
    rcases register_cases c good hw h x with e | ⟨_, id, hv, _, h1, h2, h3⟩
    · simp only [IDManager.step, e]; exact h
    · refine ⟨h3, fun p i hp => ?_, fun o i ho => ?_⟩
      · simp only [IDManager.step, h2, IDManager.upd] at hp
        split at hp
        · simp at hp
        · exact h.det p i hp
      · simp only [IDManager.step, h1, IDManager.upd] at ho
        split at ho
        · injection ho with ho; subst ho; exact hv
        · exact h.o2i o i ho
  | unRegister x =>
    simp only [IDManager.step, IDManager.unRegister]
    split
    · exact h
    · next id hid =>
      refine ⟨h.gen, fun p i hp => ?_, fun o i ho => ?_⟩
      · simp only [IDManager.upd] at hp
        split at hp
        · injection hp with hp; subst hp; exact h.o2i x _ hid
        · exact h.det p i hp
      · simp only [IDManager.upd] at ho
        split at ho
        · simp at ho
        · exact h.o2i o i ho
  | setID _ _ => exact hop.elim
  | clear => exact ⟨h.gen, by simp [IDManager.step], by simp [IDManager.step]⟩

theorem valid_run {c : IDManager.Cfg ID G} {good : G → Prop} (hw : Works c good) (ms : List (IDManager.Op ID)) : ∀ (m : IDManager.St ID G), Valid c good m →
    (∀ op ∈ ms, Calm op) → Valid c good (IDManager.run c m ms) := by
  induction ms with
  | nil => intro m h _; exact h
  | cons op ms ih => intro m h hq; exact ih _ (valid_step hw h op (hq op (by simp))) fun o ho => hq o (by simp [ho])

theorem kept_step {c : IDManager.Cfg ID G} {good : G → Prop} (hw : Works c good) (hptr : ∀ a b, c.ptr a = c.ptr b → a = b)
    {m : IDManager.St ID G} (h : Valid c good m) {o : Nat} {id : ID} (hk : Kept c o id m) (op : IDManager.Op ID) (hop : Quiet op) :
    Kept c o id (IDManager.step c m op) := by
  cases op with
  | register x =>
    rcases register_cases c good hw h x with e | ⟨hn, i, hv, hd, h1, h2, h3⟩
    · simp only [IDManager.step, e]; exact hk
    · simp only [IDManager.step, Kept, h1, h2, IDManager.upd]
      by_cases e : o = x
      · subst e
        rcases hk with hk | ⟨_, hk⟩
        · rw [hn] at hk; simp at hk
        · left; simp [hd _ hk]
      · have hp : c.ptr o ≠ c.ptr x := fun h => e (hptr _ _ h)
        simp only [e, hp, if_false]; exact hk
  | unRegister x =>
    simp only [IDManager.step, IDManager.unRegister]
    split
    · exact hk
    · next i hi =>
      simp only [Kept, IDManager.upd]
      by_cases e : o = x
      · subst e
        rcases hk with hk | ⟨hk, _⟩
        · rw [hi] at hk; injection hk with hk; subst hk; right; simp
        · rw [hi] at hk; simp at hk
      · have hp : c.ptr o ≠ c.ptr x := fun h => e (hptr _ _ h)
        simp only [e, hp, if_false]; exact hk
  | setID _ _ => exact hop.elim
  | clear => exact hop.elim

theorem kept_run {c : IDManager.Cfg ID G} {good : G → Prop} (hw : Works c good) (hptr : ∀ a b, c.ptr a = c.ptr b → a = b) {o : Nat} {id : ID}
    (ms : List (IDManager.Op ID)) : ∀ (m : IDManager.St ID G), Valid c good m → (∀ op ∈ ms, Quiet op) → Kept c o id m →
    Kept c o id (IDManager.run c m ms) := by
  induction ms with
  | nil => intro m _ _ h; exact h
  | cons op ms ih =>
    intro m h hq hk
    have hqo := hq op (by simp)
    exact ih _ (valid_step hw h op (by cases op <;> simp_all [Quiet, Calm])) (fun o ho => hq o (by simp [ho])) (kept_step hw hptr h hk op hqo)

end
end Verif.Attach
