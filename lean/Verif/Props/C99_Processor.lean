import Verif.Proofs.Processor

/-!
# C99: A processor's documents are in one resource set and find each other
-/

namespace Verif.Processor

/-- files used below: document 1 refers to document 2 -/
def sampleFiles : Nat → Option Doc
  | 1 => some ⟨10, [2]⟩
  | 2 => some ⟨20, []⟩
  | _ => none

/-- with a resource set: all resources are in it, and it is the one that is given -/
theorem C99_one_set_partial (files : Nat → Option Doc) (ops : List Op) :
    (step (run (new true files) ops) .getResourceSet).2 = .set 0 ∧ ∀ (r : Nat), r < (run (new true files) ops).res.length → In (run (new true files) ops) r 0 := by
  obtain ⟨h1, h2⟩ := run_given ops (new true files) 0 rfl (by simp [new])
  refine ⟨by simp [step, getResourceSet, h1], fun r hr => ⟨_, List.getElem?_eq_getElem hr, h2 _ (List.getElem_mem hr)⟩⟩

/-- the operation creates a resource with the URI in any case -/
def Opens (u : Nat) (op : Op) : Prop :=
  op = .load u ∨ (∃ d, op = .saveObject u d) ∨ (u = star ∧ ∃ d, op = .loadReader d)

theorem opens_given (u : Nat) (op : Op) (h : Opens u op) (s : St) (g : Nat) (hg : s.given = some g) :
    (step s op).2 = .res s.res.length ∧ ∃ d, (step s op).1.res = s.res ++ [⟨u, g, d⟩] := by
  rcases h with rfl | ⟨d, rfl⟩ | ⟨rfl, d, rfl⟩ <;> simp [step, load, saveObject, loadReader, getResourceSet, create, hg]

theorem opens_none (u : Nat) (op : Op) (h : Opens u op) (s : St) (hg : s.given = none) :
    (step s op).2 = .res s.res.length ∧ (∃ d, (step s op).1.res = s.res ++ [⟨u, s.sets, d⟩]) ∧ (step s op).1.sets = s.sets + 1 := by
  rcases h with rfl | ⟨d, rfl⟩ | ⟨rfl, d, rfl⟩ <;> simp [step, load, saveObject, loadReader, getResourceSet, create, hg]

/-- with a resource set: a reference to a document goes to the resource the document was first loaded into, or saved with, from whatever resource and
whatever is done in between -/
theorem C99_shared_partial (files : Nat → Option Doc) (A B : List Op) (op : Op) (u : Nat) (hA : ∀ a ∈ A, ¬ a.makes u) (hop : Opens u op) :
    ∃ r, (step (run (new true files) A) op).2 = .res r ∧
      ∀ q, q < (run (new true files) (A ++ op :: B)).res.length → (step (run (new true files) (A ++ op :: B)) (.resolve q u)).2 = .res r := by
  obtain ⟨h1, h2⟩ := run_given A (new true files) 0 rfl (by simp [new])
  have h3 := run_makes u A (new true files) (by simp [new]) hA
  have hrun : run (new true files) (A ++ op :: B) = run (step (run (new true files) A) op).1 B := run_append _ _ _
  have hset := (run_given (A ++ op :: B) (new true files) 0 rfl (by simp [new])).2
  rw [hrun] at hset ⊢
  generalize run (new true files) A = s at h1 h2 h3 hset
  obtain ⟨e1, d, e2⟩ := opens_given u op hop s 0 h1
  refine ⟨_, e1, fun q hq => ?_⟩
  have hnew : (step s op).1.res[s.res.length]? = some ⟨u, 0, d⟩ := by rw [e2]; simp
  obtain ⟨x, k1, k2, k3, -⟩ := run_old B _ _ _ hnew
  have hbefore : ∀ (i : Nat) (y : Res), i < s.res.length → (run (step s op).1 B).res[i]? = some y → ¬ (y.set = 0 ∧ y.uri = u) := by
    intro i y hi hy hc
    have : (step s op).1.res[i]? = some s.res[i] := by
      rw [e2, List.getElem?_append_left hi, List.getElem?_eq_getElem hi]
    obtain ⟨z, m1, m2, -, -⟩ := run_old B _ _ _ this
    rw [hy] at m1
    simp only [Option.some.injEq] at m1
    subst m1
    exact h3 _ (List.getElem_mem hi) (m2.symm.trans hc.2)
  have hq' := List.getElem?_eq_getElem hq
  have hs0 : (run (step s op).1 B).res[q].set = 0 := hset _ (List.getElem_mem hq)
  have := getResource_first _ 0 u s.res.length x k1 k3 k2 hbefore
  generalize run (step s op).1 B = t at *
  simp only [step, resolve, hq', hs0, this]

/-- document 1 refers to document 2, which is loaded too: the reference goes to what was loaded -/
example : (step (run (new true sampleFiles) [.load 1, .load 2]) (.resolve 0 2)).2 = .res 1 ∧ Opens 2 (.load 2) ∧ ¬ (Op.load 1).makes 2 := by
  refine ⟨by decide, .inl rfl, by simp [Op.makes]⟩

/-- what has been loaded stays in its resource, and the resource in its resource set -/
theorem C99_kept (s : St) (ops : List Op) (r : Nat) :
    (∀ d, Has s r d → Has (run s ops) r d) ∧ ∀ n, In s r n → In (run s ops) r n := by
  refine ⟨fun d ⟨x, h1, h2⟩ => ?_, fun n ⟨x, h1, h2⟩ => ?_⟩ <;> obtain ⟨y, k1, k2, k3, k4⟩ := run_old ops s r x h1
  · exact ⟨y, k1, k4 d h2⟩
  · exact ⟨y, k1, k3.trans h2⟩

example : Has (run (new true sampleFiles) [.load 1]) 0 ⟨10, [2]⟩ :=
  ⟨⟨1, 0, some ⟨10, [2]⟩⟩, rfl, rfl⟩

/-- nothing is written to the document: no object is saved there, nor a resource with its URI -/
def Unwritten (u : Nat) : St → List Op → Prop
  | _, [] => True
  | s, op :: ops => (∀ d, op ≠ .saveObject u d) ∧ (∀ r, op = .save r → ∀ x, s.res[r]? = some x → x.uri ≠ u) ∧ Unwritten u (step s op).1 ops

theorem files_kept (u : Nat) (ops : List Op) : ∀ (s : St), Unwritten u s ops → (run s ops).files u = s.files u := by
  induction ops with
  | nil => intro s _; rfl
  | cons op ops ih =>
    intro s ⟨h1, h2, h3⟩
    refine (ih _ h3).trans ?_
    cases op with
    | getResourceSet => simp only [step, getResourceSet]; cases s.given <;> rfl
    | load v => simp only [step, load, getResourceSet, create]; cases s.given <;> rfl
    | loadReader d => simp only [step, loadReader, getResourceSet, create]; cases s.given <;> rfl
    | saveObject v d =>
      have : u ≠ v := fun e => h1 d (by rw [e])
      simp only [step, saveObject, getResourceSet, create]; cases s.given <;> simp [this]
    | save r =>
      simp only [step, save]
      cases hr : s.res[r]? with
      | none => rfl
      | some x =>
        have : u ≠ x.uri := fun e => h2 r rfl x hr e.symm
        simp only
        cases x.doc <;> simp [this]
    | resolve r v =>
      simp only [step, resolve]
      cases hr : s.res[r]? with
      | none => rfl
      | some x =>
        simp only [getResource]
        split
        · split
          · split <;> rfl
          · rfl
        · rfl

theorem load_has (s : St) (u : Nat) (d : Doc) (h : s.files u = some d) : ∃ r, (step s (.load u)).2 = .res r ∧ Has (step s (.load u)).1 r d := by
  refine ⟨s.res.length, ?_⟩
  cases hg : s.given with
  | none => exact ⟨by simp [step, load, getResourceSet, create, hg], ⟨u, s.sets, some d⟩, by simp [step, load, getResourceSet, create, hg, h], rfl⟩
  | some g => exact ⟨by simp [step, load, getResourceSet, create, hg], ⟨u, g, some d⟩, by simp [step, load, getResourceSet, create, hg, h], rfl⟩

/-- with or without a resource set: what was saved last is what is loaded, whatever else is done in between -/
theorem C99_saved (s : St) (u : Nat) (d : Doc) (ops : List Op) (h : Unwritten u (step s (.saveObject u d)).1 ops) :
    ∃ r, (step (run (step s (.saveObject u d)).1 ops) (.load u)).2 = .res r ∧ Has (step (run (step s (.saveObject u d)).1 ops) (.load u)).1 r d := by
  refine load_has _ u d ((files_kept u ops _ h).trans ?_)
  cases hg : s.given <;> simp [step, saveObject, getResourceSet, create, hg]

/-- the same for a loaded resource that is saved -/
theorem C99_saved_resource (s : St) (q : Nat) (x : Res) (d : Doc) (hq : s.res[q]? = some x) (hd : x.doc = some d) (ops : List Op)
    (h : Unwritten x.uri (step s (.save q)).1 ops) :
    ∃ r, (step (run (step s (.save q)).1 ops) (.load x.uri)).2 = .res r ∧ Has (step (run (step s (.save q)).1 ops) (.load x.uri)).1 r d := by
  refine load_has _ x.uri d ((files_kept x.uri ops _ h).trans ?_)
  simp [step, save, hq, hd]

/-- document 3 is saved, document 1 loaded and saved, document 3 loaded -/
example : Unwritten 3 (step (new false sampleFiles) (.saveObject 3 ⟨30, []⟩)).1 [.load 1, .save 1] := by
  refine ⟨by simp, by simp, by simp, fun r hr x hx => ?_, trivial⟩
  simp only [Op.save.injEq] at hr
  subst hr
  have : x = ⟨1, 1, some ⟨10, [2]⟩⟩ := by simpa using hx.symm.trans (rfl : _ = some (⟨1, 1, some ⟨10, [2]⟩⟩ : Res))
  simp [this]

/-- without a resource set: any two documents, loaded or saved, are in different resource sets, and `GetResourceSet` gives neither of them -/
theorem C99_set_violated (files : Nat → Option Doc) (A B C : List Op) (u v : Nat) (op1 op2 : Op) (h1 : Opens u op1) (h2 : Opens v op2) :
    ∃ r1 r2 m n, (step (run (new false files) A) op1).2 = .res r1 ∧ (step (run (new false files) (A ++ op1 :: B)) op2).2 = .res r2 ∧
      In (run (new false files) (A ++ op1 :: B ++ op2 :: C)) r1 m ∧ In (run (new false files) (A ++ op1 :: B ++ op2 :: C)) r2 n ∧ m ≠ n ∧
      ∃ k, (step (run (new false files) (A ++ op1 :: B ++ op2 :: C)) .getResourceSet).2 = .set k ∧ k ≠ m ∧ k ≠ n := by
  have hA := run_none A (new false files) rfl (by simp [new])
  have hB := run_none (A ++ op1 :: B) (new false files) rfl (by simp [new])
  have hC := run_none (A ++ op1 :: B ++ op2 :: C) (new false files) rfl (by simp [new])
  have eB : run (new false files) (A ++ op1 :: B) = run (step (run (new false files) A) op1).1 B := run_append _ _ _
  have eC : run (new false files) (A ++ op1 :: B ++ op2 :: C) = run (step (run (new false files) (A ++ op1 :: B)) op2).1 C := run_append _ _ _
  obtain ⟨a1, ⟨d1, a2⟩, a3⟩ := opens_none u op1 h1 _ hA.1
  obtain ⟨b1, ⟨d2, b2⟩, b3⟩ := opens_none v op2 h2 _ hB.1
  generalize hsA : run (new false files) A = sA at *
  generalize hsB : run (new false files) (A ++ op1 :: B) = sB at *
  generalize hsC : run (new false files) (A ++ op1 :: B ++ op2 :: C) = sC at *
  have n1 : (step sA op1).1.res[sA.res.length]? = some ⟨u, sA.sets, d1⟩ := by rw [a2]; simp
  obtain ⟨x, k1, -, k3, -⟩ := run_old B _ _ _ n1
  rw [← eB] at k1
  obtain ⟨y, l1, -, l3, -⟩ := (step_spec sB op2).old _ _ k1
  obtain ⟨z, m1, -, m3, -⟩ := run_old C _ _ _ l1
  have n2 : (step sB op2).1.res[sB.res.length]? = some ⟨v, sB.sets, d2⟩ := by rw [b2]; simp
  obtain ⟨w, o1, -, o3, -⟩ := run_old C _ _ _ n2
  rw [← eC] at m1 o1
  have i1 : sA.sets < sB.sets := by
    have := hB.2.2 x (List.mem_of_getElem? k1)
    simp only [k3] at this
    exact this
  have i2 := hC.2.2 z (List.mem_of_getElem? m1)
  have i3 := hC.2.2 w (List.mem_of_getElem? o1)
  rw [m3, l3, k3] at i2
  rw [o3] at i3
  refine ⟨_, _, sA.sets, sB.sets, a1, b1, ⟨z, m1, m3.trans (l3.trans k3)⟩, ⟨w, o1, o3⟩, by omega, sC.sets, ?_, ?_, ?_⟩
  · simp [step, getResourceSet, hC.1]
  · simp only at i2; omega
  · simp only at i3; omega

/-- so a reference from one of them to the other never goes to the resource that was loaded, or saved, in either direction -/
theorem C99_reference_violated (files : Nat → Option Doc) (A B C : List Op) (u v : Nat) (op1 op2 : Op) (h1 : Opens u op1) (h2 : Opens v op2) (t : Nat) :
    ∃ r1 r2 i j, (step (run (new false files) A) op1).2 = .res r1 ∧ (step (run (new false files) (A ++ op1 :: B)) op2).2 = .res r2 ∧
      (step (run (new false files) (A ++ op1 :: B ++ op2 :: C)) (.resolve r2 t)).2 = .res i ∧ i ≠ r1 ∧
      (step (run (new false files) (A ++ op1 :: B ++ op2 :: C)) (.resolve r1 t)).2 = .res j ∧ j ≠ r2 := by
  obtain ⟨r1, r2, m, n, e1, e2, ⟨x, x1, x2⟩, ⟨y, y1, y2⟩, hne, -⟩ := C99_set_violated files A B C u v op1 op2 h1 h2
  generalize run (new false files) (A ++ op1 :: B ++ op2 :: C) = s at *
  refine ⟨r1, r2, (getResource s y.set t).2, (getResource s x.set t).2, e1, e2, by simp [step, resolve, y1], fun h => ?_, by simp [step, resolve, x1], fun h => ?_⟩
  · obtain ⟨z, z1, z2⟩ := getResource_in s y.set t
    obtain ⟨w, w1, -, w3, -⟩ := (step_spec s (.resolve r2 t)).old r1 x x1
    simp only [step, resolve, y1] at w1
    rw [h, w1] at z1
    simp only [Option.some.injEq] at z1
    subst z1
    exact hne (by rw [← x2, ← y2, ← w3, z2])
  · obtain ⟨z, z1, z2⟩ := getResource_in s x.set t
    obtain ⟨w, w1, -, w3, -⟩ := (step_spec s (.resolve r1 t)).old r2 y y1
    simp only [step, resolve, x1] at w1
    rw [h, w1] at z1
    simp only [Option.some.injEq] at z1
    subst z1
    exact hne (by rw [← x2, ← y2, ← w3, z2])

/-- documents 2 and 1 are loaded; the reference of the latter to the former goes to a third resource, loaded once more -/
example : (step (run (new false sampleFiles) [.load 2, .load 1]) (.resolve 1 2)).2 = .res 2 ∧
    (run (new false sampleFiles) [.load 2, .load 1, .resolve 1 2]).res = [⟨2, 0, some ⟨20, []⟩⟩, ⟨1, 1, some ⟨10, [2]⟩⟩, ⟨2, 1, some ⟨20, []⟩⟩] := by decide

/-- with a resource set: what is loaded for a URI another time is in a second resource, and no reference to the URI goes there, not even its own; all
documents read from readers have the same URI, so this is the case for all of them but the first -/
theorem C99_twice_violated (files : Nat → Option Doc) (A B C : List Op) (u : Nat) (op1 op2 : Op) (hA : ∀ a ∈ A, ¬ a.makes u) (h1 : Opens u op1) (h2 : Opens u op2) :
    ∃ r1 r2, (step (run (new true files) A) op1).2 = .res r1 ∧ (step (run (new true files) (A ++ op1 :: B)) op2).2 = .res r2 ∧ r1 ≠ r2 ∧
      (step (run (new true files) (A ++ op1 :: (B ++ op2 :: C))) (.resolve r2 u)).2 = .res r1 := by
  obtain ⟨r1, e1, e2⟩ := C99_shared_partial files A (B ++ op2 :: C) op1 u hA h1
  have hg := (run_given (A ++ op1 :: B) (new true files) 0 rfl (by simp [new])).1
  have hgA := (run_given A (new true files) 0 rfl (by simp [new])).1
  obtain ⟨f1, d, f2⟩ := opens_given u op2 h2 _ 0 hg
  obtain ⟨g1, d', g2⟩ := opens_given u op1 h1 _ 0 hgA
  have hl : (run (new true files) A).res.length < (run (new true files) (A ++ op1 :: B)).res.length := by
    rw [run_append]
    have : (step (run (new true files) A) op1).1.res[(run (new true files) A).res.length]? = some ⟨u, 0, d'⟩ := by rw [g2]; simp
    obtain ⟨x, k1, -⟩ := run_old B _ _ _ this
    exact (List.getElem?_eq_some_iff.1 k1).1
  have hr1 : r1 = (run (new true files) A).res.length := by
    rw [g1] at e1
    simpa using e1.symm
  refine ⟨r1, _, e1, f1, by omega, e2 _ ?_⟩
  have : (step (run (new true files) (A ++ op1 :: B)) op2).1.res[(run (new true files) (A ++ op1 :: B)).res.length]? = some ⟨u, 0, d⟩ := by rw [f2]; simp
  obtain ⟨x, k1, -⟩ := run_old C _ _ _ this
  have e : run (new true files) (A ++ op1 :: (B ++ op2 :: C)) = run (step (run (new true files) (A ++ op1 :: B)) op2).1 C := by
    have : A ++ op1 :: (B ++ op2 :: C) = (A ++ op1 :: B) ++ op2 :: C := by simp
    rw [this, run_append]
    rfl
  rw [e]
  exact (List.getElem?_eq_some_iff.1 k1).1

/-- two documents are read from readers: a reference of the second to its own URI goes to the first -/
example : (step (run (new true sampleFiles) [.loadReader ⟨30, []⟩, .loadReader ⟨40, [star]⟩]) (.resolve 1 star)).2 = .res 0 := by decide

end Verif.Processor
